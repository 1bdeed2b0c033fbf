import Verif.Lemmas.SideLocal
import Verif.Props.ProgramSave
/-
  C91: parts of a program that share no layers and no models do not influence each other.
-/
set_option linter.unusedSectionVars false

namespace Godeep.Props
open Godeep Spec GoNum Side

variable {T : Type} [GoNum T] {e e' : Nat → Env} {w w' : World T}

/-! ### copies -/

theorem alloc_elt {h a : Heap T} {v : T} (h0 : 0 < h.next) (x : Extends (h.alloc v).2 a) : elt a (h.alloc v).1 = some v := by
  unfold elt
  rw [if_neg (show ¬ (h.alloc v).1 = 0 by show ¬ h.next = 0; omega)]
  have := x.2 h.next (Nat.lt_succ_self _)
  show some (a.val h.next) = some v
  rw [this]
  simp [Heap.alloc]

theorem elt_alloc {h : Heap T} {q : Nat} (hq : q < h.next) (v : T) : elt (h.alloc v).2 q = elt h q := by
  unfold elt
  have : (h.alloc v).2.val q = h.val q := by simp only [Heap.alloc]; rw [if_neg (by omega)]
  rw [this]

theorem copy_local {ops ops' : List Nat} (l : List Nat) {h h' : Heap T} (h0 : 0 < h.next) (h0' : 0 < h'.next) (hl : ∀ q ∈ ops, q < h.next) (hl' : ∀ q ∈ ops', q < h'.next)
    (he : ops'.map (elt h') = ops.map (elt h)) :
    Ends True (fun o a o' b => o'.map (elt b) = o.map (elt a)) (fun _ _ => True) (Heap.allocEach (fun i h => h.loadAt ops i) l h) (Heap.allocEach (fun i h => h.loadAt ops' i) l h') := by
  induction l generalizing h h' with
  | nil => exact rfl
  | cons i l ih =>
    unfold Heap.allocEach
    rw [loadAt_elt h', loadAt_elt h, he]
    cases (ops.map (elt h))[i]? with
    | none => exact fun _ => rfl
    | some o => cases o with
      | none => exact fun _ => rfl
      | some v =>
        have H := ih (h := (h.alloc v).2) (h' := (h'.alloc v).2) (Nat.succ_pos _) (Nat.succ_pos _) (fun q hq => Nat.lt_succ_of_lt (hl q hq)) (fun q hq => Nat.lt_succ_of_lt (hl' q hq)) (by
          rw [List.map_congr_left fun q hq => elt_alloc (hl' q hq) v, List.map_congr_left fun q hq => elt_alloc (hl q hq) v, he])
        have A := Own.allocEach_allocs (f := fun i h => h.loadAt ops i) l (h.alloc v).2
        have A' := Own.allocEach_allocs (f := fun i h => h.loadAt ops' i) l (h'.alloc v).2
        dsimp only
        cases e1 : Heap.allocEach (fun i h => h.loadAt ops i) l (h.alloc v).2 with
        | ok o a => cases e2 : Heap.allocEach (fun i h => h.loadAt ops' i) l (h'.alloc v).2 with
          | ok o' b =>
            rw [e1] at A
            rw [e2] at A'
            rw [e1, e2] at H
            show ((h'.alloc v).1 :: o').map (elt b) = ((h.alloc v).1 :: o).map (elt a)
            rw [List.map_cons, List.map_cons, alloc_elt h0 A.1, alloc_elt h0' A'.1]
            exact congrArg _ H
          | err _ _ => rw [e1, e2] at H; exact H.elim
          | panic => rw [e1, e2] at H; exact H.elim
        | err _ a => cases e2 : Heap.allocEach (fun i h => h.loadAt ops' i) l (h'.alloc v).2 with
          | ok o' b => rw [e1, e2] at H; exact H.elim
          | err _ _ => rw [e1, e2] at H; exact H
          | panic => rw [e1, e2] at H; exact H.elim
        | panic =>
          rw [e1] at H
          intro _
          rw [H trivial]
          rfl

/-- copies of a tensor of a part -/
theorem copyTensor_local {g : Sd} {X : Nat → Nat → Prop} (hb : Both g X w w') {n : Nat} (hn : g.node n) :
    SameEnd (fun n w1 n' w1' => tensorElements w1' n' = tensorElements w1 n) (fun _ _ => True) (NetM.copyTensor n w) (NetM.copyTensor n w') := by
  show SameEnd _ _ (Run.leaf (w.store.nodes n).mat.copy w) (Run.leaf (w'.store.nodes n).mat.copy w')
  rw [hb.agree.node n hn]
  have H := copy_local (ops := (w.store.nodes n).mat.ops) (ops' := (w.store.nodes n).mat.ops) (List.range (w.store.nodes n).mat.getSize) hb.left.next hb.right.next
    (fun q hq => hb.left.cell q ((hb.left.nodes n hn).ops q hq)) (fun q hq => hb.right.cell q ((hb.left.nodes n hn).ops q hq))
    (elts_in (g := g) (h0 := w.store.heap) (h0' := w'.store.heap) ⟨hb.agree.cell, HW.refl _, HW.refl _⟩ (hb.left.nodes n hn).ops)
  generalize (w.store.nodes n).mat = m at H
  unfold Run.leaf
  show SameEnd _ _ ((Run.heap m.copy w).bind fun m => Run.newNode _) ((Run.heap m.copy w').bind fun m => Run.newNode _)
  unfold Run.heap Mat.copy
  cases e1 : Heap.allocEach (fun i h => h.loadAt m.ops i) (List.range m.getSize) w.store.heap with
  | ok o a => cases e2 : Heap.allocEach (fun i h => h.loadAt m.ops i) (List.range m.getSize) w'.store.heap with
    | ok o' b =>
      rw [e1, e2] at H
      show tensorElements _ _ = tensorElements _ _
      unfold tensorElements elements
      simp only [Store.setNode, if_true]
      exact Prod.ext rfl H
    | err _ _ => rw [e1, e2] at H; exact H.elim
    | panic => rw [e1, e2] at H; exact H.elim
  | err _ a => cases e2 : Heap.allocEach (fun i h => h.loadAt m.ops i) (List.range m.getSize) w'.store.heap with
    | ok o' b => rw [e1, e2] at H; exact H.elim
    | err _ _ => rw [e1, e2] at H; exact H
    | panic => rw [e1, e2] at H; exact H.elim
  | panic => rw [e1] at H; rw [H trivial]; trivial

/-! ### weights -/

theorem weights_same {g : Sd} {X : Nat → Nat → Prop} (hb : Both g X w w') {l : Nat} (hl : g.layer l) : weightElements w' l = weightElements w l := by
  unfold weightElements ownTensors
  rw [hb.agree.layer l hl]
  have hx := hb.left.layers l hl
  split
  · rfl
  · rw [List.map_map, List.map_map]
    refine List.map_congr_left fun n hn => ?_
    have hn : g.node n := by
      rcases List.mem_append.1 hn with h | h
      · exact hx.weights n (by simpa using h)
      · exact hx.bias n (by simpa using h)
    show elements w' (w'.store.nodes n).mat = elements w (w.store.nodes n).mat
    rw [hb.agree.node n hn]
    exact Prod.ext rfl (elts_in (g := g) (h0 := w.store.heap) (h0' := w'.store.heap) ⟨hb.agree.cell, HW.refl _, HW.refl _⟩ (hb.left.nodes n hn).ops)

variable [Bin T] {i : Nat}

theorem both_turns (h : Shared e w) (ht : Turns (fun j => j ≠ i) e w e' w') :
    ∃ g : Sd, Both g (Like e e' i w w') w w' ∧ (∀ l ∈ (e i).layers, g.layer l) ∧ ∀ m ∈ (e i).models, g.net m := by
  obtain ⟨rnd, h⟩ := h
  obtain ⟨p, u, ok, _⟩ := ok_turns h (ok_start rnd)
  obtain ⟨p', u', ok', k⟩ := ok_turns ht ok
  obtain ⟨k1, k2⟩ := k i fun h => h rfl
  refine ⟨p i, ⟨ok.side i, k1 ▸ ok'.side i, k2, fun x x' hx => hx.2.2, fun x x' hx => ⟨fun q hq hc => ?_, fun q hq hc => ?_⟩⟩, ok.layers i, ok.models i⟩
  · exact (ok.users i).cell q hc ((ok.user.nodes x (ok.tensors i x hx.1)).ops q hq)
  · exact (ok'.users i).cell q (by rw [k1]; exact hc) ((ok'.user.nodes x' (ok'.tensors i x' hx.2.1)).ops q hq)

/-- **C91** Whatever the other parts do, the layers and the models of a part stay as they are, and so do the weights. -/
theorem C91_unchanged (h : Shared e w) (ht : Turns (fun j => j ≠ i) e w e' w') :
    (∀ l ∈ (e i).layers, w'.layers l = w.layers l ∧ weightElements w' l = weightElements w l) ∧ ∀ m ∈ (e i).models, w'.nets m = w.nets m := by
  obtain ⟨g, hb, hl, hm⟩ := both_turns h ht
  exact ⟨fun l h => ⟨hb.agree.layer l (hl l h), weights_same hb (hl l h)⟩, fun m h => hb.agree.net m (hm m h)⟩

/-- **C91** A compiled model of a part predicts, after whatever the other parts do, what it would have predicted before. -/
theorem C91_predict (h : Shared e w) (ht : Turns (fun j => j ≠ i) e w e' w') {m : Nat} (hm : m ∈ (e i).models) (hc : (w.nets m).ff ≠ none) {x x' : Nat}
    (hx : x ∈ (e i).tensors) (hx' : x' ∈ (e' i).tensors) (same : tensorElements w' x' = tensorElements w x) :
    SameEnd (fun n w1 n' w1' => tensorElements w1' n' = tensorElements w1 n) (fun _ _ => True) (NetM.predict m x w) (NetM.predict m x' w') := by
  obtain ⟨g, hb, _, hn⟩ := both_turns h ht
  have H := rel_predictOut (s := True) (hn m hm) (show Like e e' i w w' x x' from ⟨hx, hx', same⟩) hb hc
  rw [predict_split, predict_split]
  cases e1 : predictOut m x w with
  | ok o w1 => cases e2 : predictOut m x' w' with
    | ok o' w2 =>
      rw [e1, e2] at H
      obtain ⟨b, rfl, ho⟩ := H
      exact copyTensor_local b ho
    | err _ _ => rw [e1, e2] at H; exact H.elim
    | panic => rw [e1, e2] at H; exact H.elim
  | err _ w1 => cases e2 : predictOut m x' w' with
    | ok o' w2 => rw [e1, e2] at H; exact H.elim
    | err _ _ => rw [e1, e2] at H; exact ⟨H.1, trivial⟩
    | panic => rw [e1, e2] at H; exact H.elim
  | panic => rw [e1] at H; rw [H trivial]; trivial

/-- **C91** Training a compiled model of a part, after whatever the other parts do, gives the loss and the weights that it
would have given before. -/
theorem C91_trainOne (h : Shared e w) (ht : Turns (fun j => j ≠ i) e w e' w') {m : Nat} (hm : m ∈ (e i).models) (hc : (w.nets m).bp ≠ none) {x x' y y' : Nat}
    (hx : Like e e' i w w' x x') (hy : Like e e' i w w' y y') (a mo : T) (hp : NetM.trainOne m x y a mo w ≠ .panic) :
    SameEnd (fun loss w1 loss' w1' => loss' = loss ∧ ∀ l ∈ (e i).layers, weightElements w1' l = weightElements w1 l) (fun w1 w1' => ∀ l ∈ (e i).layers, weightElements w1' l = weightElements w1 l)
      (NetM.trainOne m x y a mo w) (NetM.trainOne m x' y' a mo w') := by
  obtain ⟨g, hb, hl, hn⟩ := both_turns h ht
  have H := rel_trainOne (hn m hm) hx hy a mo hb hc
  cases e1 : NetM.trainOne m x y a mo w with
  | ok o w1 => cases e2 : NetM.trainOne m x' y' a mo w' with
    | ok o' w2 => rw [e1, e2] at H; exact ⟨H.2, fun l h => weights_same H.1 (hl l h)⟩
    | err _ _ => rw [e1, e2] at H; exact H.elim
    | panic => rw [e1, e2] at H; exact H.elim
  | err _ w1 => cases e2 : NetM.trainOne m x' y' a mo w' with
    | ok o' w2 => rw [e1, e2] at H; exact H.elim
    | err _ _ => rw [e1, e2] at H; exact ⟨H.1, fun l h => weights_same H.2 (hl l h)⟩
    | panic => rw [e1, e2] at H; exact H.elim
  | panic => exact absurd e1 hp

/-- **C91** … with many inputs and targets. -/
theorem C91_train (h : Shared e w) (ht : Turns (fun j => j ≠ i) e w e' w') {m : Nat} (hm : m ∈ (e i).models) (hc : (w.nets m).bp ≠ none) {xs xs' ys ys' : List Nat}
    (hx : List.Forall₂ (Like e e' i w w') xs xs') (hy : List.Forall₂ (Like e e' i w w') ys ys') (epochs batch : Nat) (a mo : T) (draw : Nat → Nat)
    (hp : NetM.train m xs ys epochs batch a mo draw w ≠ .panic) :
    SameEnd (fun _ w1 _ w1' => ∀ l ∈ (e i).layers, weightElements w1' l = weightElements w1 l) (fun w1 w1' => ∀ l ∈ (e i).layers, weightElements w1' l = weightElements w1 l)
      (NetM.train m xs ys epochs batch a mo draw w) (NetM.train m xs' ys' epochs batch a mo draw w') := by
  obtain ⟨g, hb, hl, hn⟩ := both_turns h ht
  have H := rel_train (hn m hm) hx hy epochs batch a mo draw hb hc
  cases e1 : NetM.train m xs ys epochs batch a mo draw w with
  | ok o w1 => cases e2 : NetM.train m xs' ys' epochs batch a mo draw w' with
    | ok o' w2 => rw [e1, e2] at H; exact fun l h => weights_same H.1 (hl l h)
    | err _ _ => rw [e1, e2] at H; exact H.elim
    | panic => rw [e1, e2] at H; exact H.elim
  | err _ w1 => cases e2 : NetM.train m xs' ys' epochs batch a mo draw w' with
    | ok o' w2 => rw [e1, e2] at H; exact H.elim
    | err _ _ => rw [e1, e2] at H; exact ⟨H.1, fun l h => weights_same H.2 (hl l h)⟩
    | panic => rw [e1, e2] at H; exact H.elim
  | panic => exact absurd e1 hp

/-! ### a case -/

/-- a call: who makes it, and what it returns -/
structure Turn (T : Type) where
  who : Nat
  call : Act T
  ret : Ret

/-- the same result -/
def sameRet : Ret → Ret → Bool
  | .nothing, .nothing => true
  | .tensor n, .tensor k | .layer n, .layer k | .model n, .model k | .scalar n, .scalar k => n == k
  | _, _ => false

theorem sameRet_iff {r s : Ret} (h : sameRet r s = true) : r = s := by
  cases r <;> cases s <;> first | rfl | (cases h) | exact congrArg _ (by simpa [sameRet] using h)

/-- what the parts have after the calls -/
def envs (e : Nat → Env) : List (Turn T) → Nat → Env
  | [] => e
  | c :: cs => envs (share e c.who c.ret) cs

/-- the calls use only what their parts have -/
def useTurns (e : Nat → Env) : List (Turn T) → Bool
  | [] => true
  | c :: cs => usesB (e c.who) c.call && (c.call.scalars.all fun p => (e c.who).scalars.contains p) && useTurns (share e c.who c.ret) cs

/-- make the calls -/
def runTurns : List (Turn T) → World T → Option (World T)
  | [], w => some w
  | c :: cs, w =>
    match c.call.run w with
    | .ok r w => if sameRet r c.ret then runTurns cs w else none
    | _ => none

theorem turns_of {who : Nat → Prop} (cs : List (Turn T)) (hw : ∀ c ∈ cs, who c.who) {e0 e : Nat → Env} {w0 w w' : World T} (h0 : Turns who e0 w0 e w) (hu : useTurns e cs = true)
    (h : runTurns cs w = some w') : Turns who e0 w0 (envs e cs) w' := by
  induction cs generalizing e w with
  | nil => cases h; exact h0
  | cons c cs ih =>
    unfold useTurns at hu
    rw [Bool.and_eq_true, Bool.and_eq_true, List.all_eq_true] at hu
    unfold runTurns at h
    cases er : c.call.run w with
    | ok r w1 =>
      rw [er] at h
      dsimp only at h
      split at h
      · next hr =>
        rw [sameRet_iff hr] at er
        exact ih (fun d hd => hw d (List.mem_cons_of_mem _ hd)) (.ok h0 (hw c List.mem_cons_self) (usesB_iff _ _ hu.1.1) (fun p hp => by simpa using hu.1.2 p hp) er) hu.2 h
      · cases h
    | err _ _ => rw [er] at h; cases h
    | panic => rw [er] at h; cases h

/-- Two parts: each makes a model of a dense layer and compiles it.  They share an input (tensor 0) and a target (tensor 1). -/
def twoParts : List (Turn (BitVec 16)) :=
  [⟨0, .fromValues [3] [1], .tensor 0⟩, ⟨1, .fromValues [50] [1], .tensor 1⟩, ⟨0, .input [1], .layer 0⟩, ⟨0, .dense 1 .linear, .layer 1⟩, ⟨0, .connect 1 0, .nothing⟩,
    ⟨0, .fromInOut 0 1, .model 0⟩, ⟨0, .compile 0, .nothing⟩, ⟨0, .compileBP 0, .nothing⟩, ⟨1, .input [1], .layer 2⟩, ⟨1, .dense 1 .linear, .layer 3⟩, ⟨1, .connect 3 2, .nothing⟩,
    ⟨1, .fromInOut 2 3, .model 1⟩, ⟨1, .compile 1, .nothing⟩, ⟨1, .compileBP 1, .nothing⟩]

/-- The second part trains its model, and makes another model of its layers. -/
def secondPart : List (Turn (BitVec 16)) := [⟨1, .trainOne 1 0 1 1 0, .nothing⟩, ⟨1, .fromInOut 2 3, .model 2⟩]

/-- the state before the calls of the second part -/
def partsRun : Option (World (BitVec 16)) := runTurns twoParts (start fun a i => BitVec.ofNat 16 (2 + a + i))

theorem parts_check : (match partsRun with
    | some w => (w.nets 0).ff.isSome && (w.nets 0).bp.isSome && (match NetM.trainOne 0 0 1 1 0 w with
          | .ok _ w1 => weightElements w1 1 != weightElements w 1
          | _ => false) && match runTurns secondPart w with
        | some w' => tensorElements w' 0 == tensorElements w 0 && tensorElements w' 1 == tensorElements w 1 && weightElements w' 3 != weightElements w 3
        | none => false
    | none => false) = true := by
  decide +kernel

theorem parts_use : useTurns (fun _ => {}) twoParts = true ∧ useTurns (envs (fun _ => {}) twoParts) secondPart = true := by decide +kernel

/-- `C91_predict` and `C91_trainOne` are not empty: both parts have a compiled model, the second one changes its weights, and
training would change the weights of the first. -/
theorem C91_example : ∃ (e e' : Nat → Env) (w w' : World (BitVec 16)), Shared e w ∧ Turns (fun j => j ≠ 0) e w e' w' ∧ 0 ∈ (e 0).models ∧ (w.nets 0).ff ≠ none ∧ (w.nets 0).bp ≠ none ∧
    Like e e' 0 w w' 0 0 ∧ Like e e' 0 w w' 1 1 ∧ 3 ∈ (e 1).layers ∧ weightElements w' 3 ≠ weightElements w 3 ∧ 1 ∈ (e 0).layers ∧
    ∃ loss w1, NetM.trainOne 0 0 1 1 0 w = .ok loss w1 ∧ weightElements w1 1 ≠ weightElements w 1 := by
  have h := parts_check
  cases e1 : partsRun with
  | none => rw [e1] at h; cases h
  | some w =>
    rw [e1] at h
    cases e2 : runTurns secondPart w with
    | none => simp only [e2, Bool.and_false] at h; cases h
    | some w' =>
      simp only [e2, Bool.and_eq_true, beq_iff_eq, bne_iff_ne] at h
      obtain ⟨⟨⟨h1, h2⟩, h3⟩, ⟨h4, h5⟩, h6⟩ := h
      refine ⟨envs (fun _ => {}) twoParts, envs (envs (fun _ => {}) twoParts) secondPart, w, w', ⟨_, turns_of twoParts (fun _ _ => trivial) (.refl _ _) parts_use.1 e1⟩,
        turns_of secondPart (fun c hc => ?_) (.refl _ _) parts_use.2 e2, by decide, fun h => (by rw [h] at h1; cases h1), fun h => (by rw [h] at h2; cases h2),
        ⟨by decide, by decide, h4⟩, ⟨by decide, by decide, h5⟩, by decide, h6, by decide, ?_⟩
      · simp only [secondPart, List.mem_cons, List.not_mem_nil, or_false] at hc
        rcases hc with rfl | rfl <;> decide
      · cases e3 : NetM.trainOne 0 0 1 1 0 w with
        | ok loss w1 => rw [e3] at h3; exact ⟨loss, w1, rfl, by simpa using h3⟩
        | err _ _ => rw [e3] at h3; cases h3
        | panic => rw [e3] at h3; cases h3

/-! ### the parts as one program -/

/-- all that the first has, the second has -/
structure Within (a b : Env) : Prop where
  tensors : ∀ t ∈ a.tensors, t ∈ b.tensors
  layers : ∀ t ∈ a.layers, t ∈ b.layers
  models : ∀ t ∈ a.models, t ∈ b.models
  scalars : ∀ t ∈ a.scalars, t ∈ b.scalars

theorem uses_mono {a b : Env} (h : Within a b) (c : Act T) (hu : c.uses a) : c.uses b := by
  obtain ⟨h1, h2, h3, h4⟩ := h
  cases c <;> simp only [Act.uses] at hu ⊢ <;> first | trivial | exact h1 _ hu | exact h2 _ hu | exact h3 _ hu | exact h4 _ hu | skip
  all_goals first
    | exact ⟨h1 _ hu.1, h1 _ hu.2⟩
    | exact ⟨h1 _ hu.1, h4 _ hu.2⟩
    | exact ⟨h2 _ hu.1, h2 _ hu.2⟩
    | exact ⟨h3 _ hu.1, h2 _ hu.2⟩
    | exact ⟨h3 _ hu.1, h1 _ hu.2⟩
    | exact ⟨h3 _ hu.1, h1 _ hu.2.1, h1 _ hu.2.2⟩
    | exact fun t ht => h1 t (hu t ht)
    | exact fun t ht => h3 t (hu t ht)
    | exact ⟨h3 _ hu.1, fun t ht => h1 t (hu.2.1 t ht), fun t ht => h1 t (hu.2.2 t ht)⟩

theorem within_add {a b : Env} (h : Within a b) (r : Ret) : Within (a.add r) (b.add r) ∧ Within (a.see r) (b.add r) := by
  obtain ⟨h1, h2, h3, h4⟩ := h
  have cons : ∀ {l k : List Nat} (x : Nat), (∀ t ∈ l, t ∈ k) → ∀ t ∈ l, t ∈ x :: k := fun x h t ht => List.mem_cons_of_mem _ (h t ht)
  have both : ∀ {l k : List Nat} (x : Nat), (∀ t ∈ l, t ∈ k) → ∀ t ∈ x :: l, t ∈ x :: k := fun x h t ht => by
    rcases List.mem_cons.1 ht with rfl | ht
    · exact List.mem_cons_self
    · exact List.mem_cons_of_mem _ (h t ht)
  cases r with
  | nothing => exact ⟨⟨h1, h2, h3, h4⟩, ⟨h1, h2, h3, h4⟩⟩
  | tensor n => exact ⟨⟨both n h1, h2, h3, h4⟩, ⟨both n h1, h2, h3, h4⟩⟩
  | layer n => exact ⟨⟨h1, both n h2, h3, h4⟩, ⟨h1, cons n h2, h3, h4⟩⟩
  | model n => exact ⟨⟨h1, h2, both n h3, h4⟩, ⟨h1, h2, cons n h3, h4⟩⟩
  | scalar n => exact ⟨⟨h1, h2, h3, both n h4⟩, ⟨h1, h2, h3, both n h4⟩⟩

/-- C91, the parts are one program: whatever state parts reach by turns, one program that has all that they have reaches it too.
So all that holds of the states of programs (C88, C89, C90, C92, saving and loading) holds of it. -/
theorem C91_one_program (h : Shared e w) : ∃ E : Env, Reached E w ∧ ∀ i, Within (e i) E := by
  obtain ⟨rnd, h⟩ := h
  suffices H : ∃ E : Env, Calls (fun _ _ => True) {} (start rnd) E w ∧ ∀ i, Within (e i) E by
    obtain ⟨E, h1, h2⟩ := H
    exact ⟨E, ⟨rnd, h1⟩, h2⟩
  generalize he : (fun _ => {} : Nat → Env) = e0 at h
  generalize hw : start rnd = w0 at h
  induction h with
  | refl => subst he hw; exact ⟨{}, .refl _ _, fun _ => ⟨fun _ h => h, fun _ h => h, fun _ h => h, fun _ h => h⟩⟩
  | @ok e1 w1 w2 w3 i c r _ _ hu _ hr ih =>
    obtain ⟨E, h1, h2⟩ := ih hw
    refine ⟨E.add r, .ok h1 (uses_mono (h2 i) c hu) trivial hr, fun j => ?_⟩
    unfold share
    split
    · exact (within_add (h2 j) r).1
    · exact (within_add (h2 j) r).2
  | err _ _ hu _ hr ih =>
    obtain ⟨E, h1, h2⟩ := ih hw
    exact ⟨E, .err h1 (uses_mono (h2 _) _ hu) trivial hr, h2⟩

end Godeep.Props
