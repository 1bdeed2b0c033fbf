import Verif.Lemmas.OwnUser
import Verif.Props.Branch
/-
  C88, C89, C90: weights and tensors in all programs.
-/
set_option linter.unusedSectionVars false

namespace Godeep.Props
open Godeep Spec GoNum

variable {T : Type} [GoNum T] [Bin T]

/-! ### C88: only training and loading change weights -/

/-- C88: In any state that a program can reach, let it make any call with anything it has got from earlier calls.  Unless the
call trains a model and layer `l` is one of its trainable layers, or the call loads a model and `l` is one of its layers, the
weights and the bias of `l`, if it has them, have the same shapes and the same values after it, whether it returns or
returns an error. -/
theorem C88_weights_stay {e : Env} {w w' : World T} (hr : Reached e w) (c : Act T) (hu : c.uses e) (l : Nat) (hc : ¬ c.mayChange w l)
    (hw : (∃ r, c.run w = .ok r w') ∨ ∃ x, c.run w = .err x w') :
    (∀ x, numbers w (w.layers l).weights = some x → numbers w' (w'.layers l).weights = some x) ∧
      ∀ x, numbers w (w.layers l).bias = some x → numbers w' (w'.layers l).bias = some x :=
  ⟨fun _ h => Own.call_numbers hr c hu hc hw (.inl rfl) h, fun _ h => Own.call_numbers hr c hu hc hw (.inr rfl) h⟩

theorem calls_trans {P : World T → Act T → Prop} {e0 e1 e2 : Env} {w0 w1 w2 : World T} (h1 : Calls P e0 w0 e1 w1) (h2 : Calls P e1 w1 e2 w2) :
    Calls P e0 w0 e2 w2 := by
  induction h2 with
  | refl => exact h1
  | ok _ hu hp hr ih => exact .ok (ih h1) hu hp hr
  | err _ hu hp hr ih => exact .err (ih h1) hu hp hr

theorem calls_mono {P Q : World T → Act T → Prop} (hPQ : ∀ w c, P w c → Q w c) {e0 e1 : Env} {w0 w1 : World T} (h : Calls P e0 w0 e1 w1) :
    Calls Q e0 w0 e1 w1 := by
  induction h with
  | refl => exact .refl _ _
  | ok _ hu hp hr ih => exact .ok ih hu (hPQ _ _ hp) hr
  | err _ hu hp hr ih => exact .err ih hu (hPQ _ _ hp) hr

theorem reached_calls {P : World T → Act T → Prop} {e e' : Env} {w w' : World T} (hr : Reached e w) (h : Calls P e w e' w') : Reached e' w' := by
  obtain ⟨rnd, hr⟩ := hr
  exact ⟨rnd, calls_trans hr (calls_mono (fun _ _ _ => trivial) h)⟩

/-- C88, for histories: … and so have they after any number of such calls. -/
theorem C88_history {e e' : Env} {w w' : World T} (hr : Reached e w) (l : Nat) (h : Calls (fun w c => ¬ c.mayChange w l) e w e' w') :
    (∀ x, numbers w (w.layers l).weights = some x → numbers w' (w'.layers l).weights = some x) ∧
      ∀ x, numbers w (w.layers l).bias = some x → numbers w' (w'.layers l).bias = some x := by
  induction h with
  | refl => exact ⟨fun _ h => h, fun _ h => h⟩
  | ok hs hu hp hc ih =>
    have H := C88_weights_stay (reached_calls hr hs) _ hu l hp (.inl ⟨_, hc⟩)
    exact ⟨fun x hx => H.1 x ((ih hr).1 x hx), fun x hx => H.2 x ((ih hr).2 x hx)⟩
  | err hs hu hp hc ih =>
    have H := C88_weights_stay (reached_calls hr hs) _ hu l hp (.inr ⟨_, hc⟩)
    exact ⟨fun x hx => H.1 x ((ih hr).1 x hx), fun x hx => H.2 x ((ih hr).2 x hx)⟩

/-- the call loads a model -/
def loads : Act T → Prop
  | .load _ _ => True
  | _ => False

/-- C88, frozen layers: as long as a layer is not trainable and nothing is loaded, no program changes its weights and its
bias: they stay the same while any models that share the layer are compiled, joined, trained, used for predictions and
saved. -/
theorem C88_frozen {e e' : Env} {w w' : World T} (hr : Reached e w) (l : Nat)
    (h : Calls (fun w c => (w.layers l).trainable = false ∧ ¬ loads c) e w e' w') :
    (∀ x, numbers w (w.layers l).weights = some x → numbers w' (w'.layers l).weights = some x) ∧
      ∀ x, numbers w (w.layers l).bias = some x → numbers w' (w'.layers l).bias = some x := by
  refine C88_history hr l (calls_mono (fun w c hc hm => ?_) h)
  cases c with
  | trainOne => have := hm.1; rw [hc.1] at this; cases this
  | train => have := hm.1; rw [hc.1] at this; cases this
  | load => exact hc.2 trivial
  | _ => exact hm

/-- C88, other models: training a model changes no layer that is not in front of its last layer. -/
theorem C88_others {e : Env} {w w' : World T} (hr : Reached e w) (c : Act T) (hu : c.uses e) (m l : Nat)
    (hc : (∃ x y a mo, c = .trainOne m x y a mo) ∨ ∃ xs ys ep b a mo d, c = .train m xs ys ep b a mo d)
    (hl : ∀ k, (w.nets m).last = some k → ¬ InFront w k l) (hw : (∃ r, c.run w = .ok r w') ∨ ∃ x, c.run w = .err x w') :
    (∀ x, numbers w (w.layers l).weights = some x → numbers w' (w'.layers l).weights = some x) ∧
      ∀ x, numbers w (w.layers l).bias = some x → numbers w' (w'.layers l).bias = some x := by
  refine C88_weights_stay hr c hu l (fun hm => ?_) hw
  rcases hc with ⟨x, y, a, mo, rfl⟩ | ⟨xs, ys, ep, b, a, mo, d, rfl⟩ <;> obtain ⟨_, k, h1, h2⟩ := hm <;> exact hl k h1 h2

/-! ### C89: weights share no memory with anything else -/

/-- C89: In any state that a program can reach, no element of a tensor that the program has got from a call is an element of
the weights or the bias of a layer; no number that it has got is one; and no two layers share one. -/
theorem C89_separate {e : Env} {w : World T} (hr : Reached e w) (l n : Nat) (hn : (w.layers l).weights = some n ∨ (w.layers l).bias = some n) :
    (∀ t ∈ e.tensors, ∀ p ∈ (w.store.nodes t).mat.ops, p ∉ (w.store.nodes n).mat.ops) ∧ (∀ p ∈ e.scalars, p ∉ (w.store.nodes n).mat.ops) ∧
      ∀ l' n', l' ≠ l → (w.layers l').weights = some n' ∨ (w.layers l').bias = some n' → ∀ p ∈ (w.store.nodes n').mat.ops, p ∉ (w.store.nodes n).mat.ops := by
  obtain ⟨g, rfl, hi, he⟩ := Own.reached_inv hr
  have ho := (hi.wts l n hn).ops
  refine ⟨fun t ht p hp hc => ?_, fun p hp hc => ?_, fun l' n' hl hn' p hp hc => ?_⟩
  · have := (hi.sound t (he.tensors t ht) p hp).2
    rw [(ho p hc).2] at this
    cases this
  · have := (he.scalars p hp).2
    rw [(ho p hc).2] at this
    cases this
  · have := ((hi.wts l' n' hn').ops p hp).2
    rw [(ho p hc).2] at this
    cases this
    exact hl rfl

/-- C89, the tensors that layers work with: … and no element of the inputs, the outputs or the error terms of a layer, or of
the input, the output or the target of a model, is one. -/
theorem C89_inside {e : Env} {w : World T} (hr : Reached e w) (l n : Nat) (hn : (w.layers l).weights = some n ∨ (w.layers l).bias = some n) (t : Nat)
    (ht : (∃ k, (w.layers k).input = some t ∨ (w.layers k).output = some t ∨ (w.layers k).dif = some t) ∨
      ∃ m, (w.nets m).input = some t ∨ (w.nets m).output = some t ∨ (w.nets m).target = some t) :
    ∀ p ∈ (w.store.nodes t).mat.ops, p ∉ (w.store.nodes n).mat.ops := by
  obtain ⟨g, rfl, hi, he⟩ := Own.reached_inv hr
  have ho := (hi.wts l n hn).ops
  have hc : g.clean t := by
    rcases ht with ⟨k, h | h | h⟩ | ⟨m, h | h | h⟩
    · exact hi.input k t h
    · exact hi.output k t h
    · exact hi.dif k t h
    · exact hi.nin m t h
    · exact hi.nout m t h
    · exact hi.ntgt m t h
  intro p hp hq
  have := (hi.sound t hc p hp).2
  rw [(ho p hq).2] at this
  cases this

/-! ### C90: tensors that a program holds -/

/-- C90: Let a call in a reachable state return a new tensor: a tensor of zeros, of ones, of given or of random values, a copy,
a prediction, or the result of a method that computes at once, other than `Concat` and `Reshape`.  Then, whatever calls the program makes later, as long as none assigns to an element of that tensor, the
tensor has the shape and the values that it had when it was returned.  In particular other predictions, compilation and
training, also with this tensor as input or target, do not change it. -/
theorem C90_kept {e e' : Env} {w w1 w' : World T} (hr : Reached e w) (c : Act T) (hu : c.uses e) (hm : c.makes) (t : Nat) (hc : c.run w = .ok (.tensor t) w1)
    (h : Calls (fun w c => ¬ c.assigns w t) (e.add (.tensor t)) w1 e' w') : numbers w' (some t) = numbers w1 (some t) := by
  have hr1 : Reached (e.add (.tensor t)) w1 := by
    obtain ⟨rnd, hr⟩ := hr
    exact ⟨rnd, .ok hr hu trivial hc⟩
  have hg : ∀ K, w1.layerNext ≤ K → ∃ g : Own.G T, g.w = w1 ∧ Own.Inv g ∧ Own.Owned g K t := fun K hK => by
    obtain ⟨g, rfl, hi, _⟩ := Own.reached_inv hr
    have H := Own.make_act (A := fun _ => True) (B := ⟨fun _ => True, True, True⟩) K hm hi
    rw [hc] at H
    obtain ⟨g2, h2, i2, _, n, h3, h4⟩ := H
    cases h3
    exact ⟨g2, h2, i2, h4⟩
  have key : ∀ K, w'.layerNext ≤ K → (∃ g : Own.G T, g.w = w' ∧ Own.Inv g ∧ Own.Owned g K t) ∧ numbers w' (some t) = numbers w1 (some t) := by
    clear hc
    induction h with
    | refl => exact fun K hK => ⟨hg K hK, rfl⟩
    | ok hs hu' hp hrun ih =>
      intro K hK
      have hK' := le_trans (Own.layers_grow (reached_calls hr1 hs) _ hu' (.inl ⟨_, hrun⟩)) hK
      have h1 := ih hr1 hg K hK'
      have h2 := Own.call_kept (reached_calls hr1 hs) _ hu' hK' h1.1 hp (.inl ⟨_, hrun⟩)
      exact ⟨h2.1, h2.2.trans h1.2⟩
    | err hs hu' hp hrun ih =>
      intro K hK
      have hK' := le_trans (Own.layers_grow (reached_calls hr1 hs) _ hu' (.inr ⟨_, hrun⟩)) hK
      have h1 := ih hr1 hg K hK'
      have h2 := Own.call_kept (reached_calls hr1 hs) _ hu' hK' h1.1 hp (.inr ⟨_, hrun⟩)
      exact ⟨h2.1, h2.2.trans h1.2⟩
  exact (key _ (le_refl _)).2

/-! ### a program -/

/-- make the calls one after the other; none may fail -/
def follow : List (Act T) → Env × World T → Option (Env × World T)
  | [], s => some s
  | c :: cs, s =>
    match c.run s.2 with
    | .ok r w => follow cs (s.1.add r, w)
    | _ => none

/-- each of the calls uses only what the program has got -/
def follows : List (Act T) → Env × World T → Prop
  | [], _ => True
  | c :: cs, s => c.uses s.1 ∧ match c.run s.2 with
    | .ok r w => follows cs (s.1.add r, w)
    | _ => True

theorem follow_calls (cs : List (Act T)) (s s' : Env × World T) (h : follow cs s = some s') (hu : follows cs s) : Calls (fun _ _ => True) s.1 s.2 s'.1 s'.2 := by
  induction cs generalizing s with
  | nil => cases h; exact .refl _ _
  | cons c cs ih =>
    unfold follow at h
    unfold follows at hu
    cases e : c.run s.2 with
    | ok r w =>
      rw [e] at h hu
      exact calls_trans (.ok (.refl _ _) hu.1 trivial e) (ih _ h hu.2)
    | err x w => rw [e] at h; cases h
    | panic => rw [e] at h; cases h

/-- the tensors, layers, models and numbers that a call uses -/
def usesB (e : Env) : Act T → Bool
  | .setScalar p _ => e.scalars.contains p
  | .copy t | .flatten t | .eval t | .set t _ _ | .loadData t _ | .element t _ | .fillData t _ | .readTensor t _ => e.tensors.contains t
  | .fill t p | .fillWith t p => e.tensors.contains t && e.scalars.contains p
  | .tensor c | .now _ c => c.args.all e.tensors.contains
  | .loadTensor t u | .copyTo t u => e.tensors.contains t && e.tensors.contains u
  | .concatLayer l k _ | .connect l k | .fromInOut l k => e.layers.contains l && e.layers.contains k
  | .setLayerTrainable l _ => e.layers.contains l
  | .fromModels ms => ms.all e.models.contains
  | .push m l => e.models.contains m && e.layers.contains l
  | .compile m | .compileBP m | .resetIS m | .setTrainable m _ | .resetSave m | .resetLoad m | .save m _ | .load m _ => e.models.contains m
  | .predict m t => e.models.contains m && e.tensors.contains t
  | .trainOne m x y _ _ => e.models.contains m && e.tensors.contains x && e.tensors.contains y
  | .train m xs ys _ _ _ _ _ => e.models.contains m && xs.all e.tensors.contains && ys.all e.tensors.contains
  | _ => true

theorem usesB_iff (e : Env) (c : Act T) : usesB e c = true → c.uses e := by
  cases c <;> simp [usesB, Act.uses] <;> tauto

def followsB : List (Act T) → Env × World T → Bool
  | [], _ => true
  | c :: cs, s => usesB s.1 c && match c.run s.2 with
    | .ok r w => followsB cs (s.1.add r, w)
    | _ => true

theorem followsB_iff (cs : List (Act T)) (s : Env × World T) (h : followsB cs s = true) : follows cs s := by
  induction cs generalizing s with
  | nil => trivial
  | cons c cs ih =>
    unfold followsB at h
    rw [Bool.and_eq_true] at h
    refine ⟨usesB_iff _ _ h.1, ?_⟩
    cases e : c.run s.2 with
    | ok r w => have := h.2; rw [e] at this; exact ih _ this
    | err x w => trivial
    | panic => trivial

/-- A program: a model with an input layer (0) and two dense layers (1, 2); another model with the same input layer, the
dense layer 1 and a dense layer of its own (3).  The first is compiled; layer 1 is frozen; the second one predicts.  Tensor 2 is
assigned to with `FillWith` and `CopyTo`. -/
def program : List (Act (BitVec 16)) :=
  [.fromValues [3] [1], .fromValues [5] [1], .zeros [1], .scalar 7, .fillWith 2 4, .eval 3, .copyTo 0 2, .eval 4, .input [1], .dense 1 .linear, .dense 1 .linear, .newModel, .push 0 0, .push 0 1, .push 0 2, .compile 0, .compileBP 0,
    .setLayerTrainable 1 false, .dense 1 .linear, .connect 3 1, .fromInOut 0 3, .compile 1, .predict 1 0]

def before : Option (Env × World (BitVec 16)) := follow program ({}, start fun k i => BitVec.ofNat 16 (k + i + 2))

theorem program_check : (match before with
    | some (e, w) => ([1, 2, 3].all fun l => (numbers w (w.layers l).weights).isSome && (numbers w (w.layers l).bias).isSome) &&
        (w.layers 1).trainable == false && (w.layers 2).trainable && (w.nets 0).last == some 2 && (w.layers 2).pre == some 1 && (w.layers 1).pre == some 0 && (w.layers 0).pre == none &&
        usesB e (Act.trainOne 0 0 1 1 0 : Act (BitVec 16)) &&
        match (Act.trainOne 0 0 1 1 0 : Act (BitVec 16)).run w with
        | .ok _ w' => numbers w' (w'.layers 2).weights != numbers w (w.layers 2).weights && numbers w' (w'.layers 2).bias != numbers w (w.layers 2).bias
        | _ => false
    | none => false) = true ∧ followsB program ({}, start fun k i => BitVec.ofNat 16 (k + i + 2)) = true := by
  decide +kernel

/-- C88, C89 are not empty: a state that `program` reaches, where the layers 1, 2 and 3 have weights and biases, and a
call of `TrainOne` that changes the weights and the bias of layer 2, may not change those of the frozen layer 1, which is in
the same model, nor those of layer 3, which is not. -/
theorem C88_example : ∃ (e : Env) (w w' : World (BitVec 16)) (r : Ret) (c : Act (BitVec 16)), Reached e w ∧ c.uses e ∧ c.run w = .ok r w' ∧
    (∀ l ∈ [1, 2, 3], (numbers w (w.layers l).weights).isSome ∧ (numbers w (w.layers l).bias).isSome) ∧
    (∃ k, (w.nets 0).last = some k ∧ InFront w k 1) ∧ ¬ c.mayChange w 1 ∧ ¬ c.mayChange w 3 ∧
    numbers w' (w'.layers 2).weights ≠ numbers w (w.layers 2).weights ∧ numbers w' (w'.layers 2).bias ≠ numbers w (w.layers 2).bias := by
  obtain ⟨h, hf⟩ := program_check
  cases e0 : before with
  | none => rw [e0] at h; cases h
  | some s =>
    obtain ⟨e, w⟩ := s
    rw [e0] at h
    dsimp only at h
    simp only [Bool.and_eq_true, List.all_eq_true, beq_iff_eq] at h
    obtain ⟨⟨⟨⟨⟨⟨⟨⟨h1, h2⟩, h3⟩, h4⟩, h5⟩, h6⟩, h7⟩, hu⟩, h⟩ := h
    cases ec : (Act.trainOne 0 0 1 1 0 : Act (BitVec 16)).run w with
    | ok r w' =>
      rw [ec] at h
      simp only [Bool.and_eq_true, bne_iff_ne] at h
      have f1 : ∀ k, InFront w 1 k → k = 1 ∨ k = 0 := fun k hk => by
        cases hk with
        | self => exact .inl rfl
        | pre hp hk =>
          rw [h6] at hp
          cases hp
          cases hk with
          | self => exact .inr rfl
          | pre hp _ => rw [h7] at hp; cases hp
      refine ⟨e, w, w', r, _, ⟨_, follow_calls program ({}, start fun k i => BitVec.ofNat 16 (k + i + 2)) (e, w) e0 (followsB_iff _ _ hf)⟩, ?_, ec,
        fun l hl => h1 l hl, ⟨2, h4, .pre h5 (.self 1)⟩, fun hm => ?_, fun hm => ?_, h.1, h.2⟩
      · exact usesB_iff _ _ hu
      · have := hm.1
        rw [h2] at this
        cases this
      · obtain ⟨_, k, hk, hp⟩ := hm
        rw [h4] at hk
        cases hk
        cases hp with
        | pre hp hk =>
          rw [h5] at hp
          cases hp
          rcases f1 3 hk with h | h <;> cases h
    | err x w' => rw [ec] at h; cases h
    | panic => rw [ec] at h; cases h

theorem held_check : (match before with
    | some (e, w) => usesB e (Act.predict 0 0 : Act (BitVec 16)) &&
        match (Act.predict 0 0 : Act (BitVec 16)).run w with
        | .ok (.tensor t) w1 => usesB (e.add (.tensor t)) (Act.trainOne 0 0 t 1 0 : Act (BitVec 16)) && usesB (e.add (.tensor t)) (Act.trainOne 0 0 1 1 0 : Act (BitVec 16)) &&
          match (Act.trainOne 0 0 1 1 0 : Act (BitVec 16)).run w1 with
          | .ok .nothing w2 =>
            match (Act.trainOne 0 0 t 1 0 : Act (BitVec 16)).run w2 with
            | .ok .nothing w3 =>
              usesB (e.add (.tensor t)) (Act.predict 0 0 : Act (BitVec 16)) &&
              match (Act.predict 0 0 : Act (BitVec 16)).run w3 with
              | .ok (.tensor u) w4 => numbers w4 (some u) != numbers w4 (some t)
              | _ => false
            | _ => false
          | _ => false
        | _ => false
    | none => false) = true := by
  decide +kernel

/-- C90 is not empty: a prediction is made, the model is trained, also with the prediction as a target, and the model
predicts something else for the same input; the first prediction is still what it was. -/
theorem C90_example : ∃ (e e' : Env) (w w1 w' : World (BitVec 16)) (t u : Nat), Reached e w ∧ (Act.predict 0 0).uses (T := BitVec 16) e ∧
    (Act.predict 0 0).run w = .ok (.tensor t) w1 ∧ Calls (fun w c => ¬ c.assigns w t) (e.add (.tensor t)) w1 e' w' ∧ u ∈ e'.tensors ∧
    numbers w' (some u) ≠ numbers w1 (some t) := by
  have h := held_check
  have hf := program_check.2
  cases e0 : before with
  | none => rw [e0] at h; cases h
  | some s =>
    obtain ⟨e, w⟩ := s
    have hr : Reached e w := ⟨_, follow_calls program ({}, start fun k i => BitVec.ofNat 16 (k + i + 2)) (e, w) e0 (followsB_iff _ _ hf)⟩
    rw [e0] at h
    dsimp only at h
    rw [Bool.and_eq_true] at h
    obtain ⟨u1, h⟩ := h
    split at h
    · next t w1 r1 =>
      rw [Bool.and_eq_true, Bool.and_eq_true] at h
      obtain ⟨⟨u2, u3⟩, h⟩ := h
      split at h
      · next w2 r2 =>
        split at h
        · next w3 r3 =>
          rw [Bool.and_eq_true] at h
          obtain ⟨u4, h⟩ := h
          split at h
          · next u w4 r4 =>
            have c2 : Calls (fun w c => ¬ c.assigns w t) (e.add (.tensor t)) w1 (e.add (.tensor t)) w2 := Calls.ok (e := e.add (.tensor t)) (r := .nothing) (.refl _ _) (usesB_iff _ _ u3) (fun h => h) r2
            have c3 : Calls (fun w c => ¬ c.assigns w t) (e.add (.tensor t)) w1 (e.add (.tensor t)) w3 := Calls.ok (e := e.add (.tensor t)) (r := .nothing) c2 (usesB_iff _ _ u2) (fun h => h) r3
            have hc : Calls (fun w c => ¬ c.assigns w t) (e.add (.tensor t)) w1 ((e.add (.tensor t)).add (.tensor u)) w4 := .ok c3 (usesB_iff _ _ u4) (fun h => h) r4
            refine ⟨e, _, w, w1, w4, t, u, hr, usesB_iff _ _ u1, r1, hc, List.mem_cons_self, ?_⟩
            rw [← C90_kept hr _ (usesB_iff _ _ u1) trivial t r1 hc]
            simpa using h
          · cases h
        · cases h
      · cases h
    · cases h

theorem now_check : (match before with
    | some (e, w) => usesB e (Act.now 0 (.add 0 1) : Act (BitVec 16)) && (w.store.nodes 0).mat.ops.length == 1 &&
        match (Act.now 0 (.add 0 1) : Act (BitVec 16)).run w with
        | .ok (.tensor t) w1 => usesB (e.add (.tensor t)) (Act.set 0 9 [0] : Act (BitVec 16)) &&
          ((w1.store.nodes 0).mat.ops.all fun p => !(w1.store.nodes t).mat.ops.contains p) &&
          match (Act.set 0 9 [0] : Act (BitVec 16)).run w1 with
          | .ok .nothing w2 =>
            usesB (e.add (.tensor t)) (Act.now 0 (.add 0 1) : Act (BitVec 16)) &&
            match (Act.now 0 (.add 0 1) : Act (BitVec 16)).run w2 with
            | .ok (.tensor u) w3 => numbers w3 (some u) != numbers w3 (some t)
            | _ => false
          | _ => false
        | _ => false
    | none => false) = true := by
  decide +kernel

/-- C90 is not empty for methods that compute at once: the sum `t` of two tensors is computed, an element of one of them is
assigned to, and the new sum is different; `t` is still what it was. -/
theorem C90_now_example : ∃ (e e' : Env) (w w1 w' : World (BitVec 16)) (t u : Nat), Reached e w ∧ (Act.now 0 (.add 0 1)).uses (T := BitVec 16) e ∧
    (Act.now 0 (.add 0 1)).makes (T := BitVec 16) ∧ (Act.now 0 (.add 0 1)).run w = .ok (.tensor t) w1 ∧
    Calls (fun w c => ¬ c.assigns w t) (e.add (.tensor t)) w1 e' w' ∧ u ∈ e'.tensors ∧ numbers w' (some u) ≠ numbers w1 (some t) := by
  have h := now_check
  have hf := program_check.2
  cases e0 : before with
  | none => rw [e0] at h; cases h
  | some s =>
    obtain ⟨e, w⟩ := s
    have hr : Reached e w := ⟨_, follow_calls program ({}, start fun k i => BitVec.ofNat 16 (k + i + 2)) (e, w) e0 (followsB_iff _ _ hf)⟩
    have hm : (Act.now 0 (.add 0 1)).makes (T := BitVec 16) := fun a b d s => ⟨(fun h => by cases h), (fun h => by cases h)⟩
    rw [e0] at h
    dsimp only at h
    rw [Bool.and_eq_true, Bool.and_eq_true] at h
    obtain ⟨⟨u1, _⟩, h⟩ := h
    split at h
    · next t w1 r1 =>
      rw [Bool.and_eq_true, Bool.and_eq_true] at h
      obtain ⟨⟨u2, hd⟩, h⟩ := h
      have hn : ¬ (Act.set 0 9 [0] : Act (BitVec 16)).assigns w1 t := by
        rintro ⟨p, h1, h2⟩
        have := List.all_eq_true.1 hd p h1
        simp [h2] at this
      split at h
      · next w2 r2 =>
        rw [Bool.and_eq_true] at h
        obtain ⟨u4, h⟩ := h
        split at h
        · next u w3 r3 =>
          have c2 : Calls (fun w c => ¬ c.assigns w t) (e.add (.tensor t)) w1 (e.add (.tensor t)) w2 := Calls.ok (e := e.add (.tensor t)) (r := .nothing) (.refl _ _) (usesB_iff _ _ u2) hn r2
          have hc : Calls (fun w c => ¬ c.assigns w t) (e.add (.tensor t)) w1 ((e.add (.tensor t)).add (.tensor u)) w3 := .ok c2 (usesB_iff _ _ u4) (fun h => h) r3
          refine ⟨e, _, w, w1, w3, t, u, hr, usesB_iff _ _ u1, hm, r1, hc, List.mem_cons_self, ?_⟩
          rw [← C90_kept hr _ (usesB_iff _ _ u1) hm t r1 hc]
          simpa using h
        · cases h
      · cases h
    · cases h

end Godeep.Props
