import Verif.Lemmas.SideTurns
/-
  Predictions and training of a compiled model in two states that agree on the part of the model end in the same way.
-/
set_option linter.unusedSectionVars false

namespace Godeep
open Spec GoNum

variable {T : Type} [GoNum T] {α β : Type}

namespace Side
variable {g u u' : Sd} {w w' w1 : World T}

/-- an element; nil elements have no value -/
def elt (h : Heap T) (p : Nat) : Option T := if p = 0 then none else some (h.val p)

theorem loadAt_elt (h : Heap T) (ops : List Nat) (i : Nat) : h.loadAt ops i = match (ops.map (elt h))[i]? with
    | some (some v) => .ok v
    | _ => .panic := by
  unfold Heap.loadAt Res.index
  rw [List.getElem?_map]
  cases ops[i]? with
  | none => rfl
  | some p =>
    show h.load p = _
    unfold Heap.load elt
    by_cases hp : p = 0
    · simp [hp]
    · simp [hp]

/-- two heaps agree on the part, and differ from two given heaps in the part only -/
structure HB (g : Sd) (h0 h0' h h' : Heap T) : Prop where
  same : ∀ q, g.cell q → q ≠ 0 → h'.val q = h.val q
  left : HW g h0 h
  right : HW g h0' h'

/-- the same end; if `s`, also of a panic -/
def Ends {S : Type} (s : Prop) (R : α → S → α → S → Prop) (E : S → S → Prop) : Out S α → Out S α → Prop
  | .ok a w, .ok b w' => R a w b w'
  | .err x w, .err y w' => x = y ∧ E w w'
  | .panic, o => s → o = .panic
  | _, _ => False

variable {s : Prop}

theorem Ends.bind {S : Type} {R : α → S → α → S → Prop} {Q : β → S → β → S → Prop} {E : S → S → Prop} {a a' : Out S α} {f f' : α → S → Out S β} (h : Ends s R E a a')
    (hf : ∀ x w x' w', R x w x' w' → Ends s Q E (f x w) (f' x' w')) : Ends s Q E (a.bind f) (a'.bind f') := by
  cases a with
  | ok x w => cases a' with
    | ok x' w' => exact hf x w x' w' h
    | err _ _ => exact h.elim
    | panic => exact h.elim
  | err x w => cases a' with
    | ok x' w' => exact h.elim
    | err _ _ => exact h
    | panic => exact h.elim
  | panic => exact fun hs => by rw [h hs]; rfl

variable {h0 h0' h h' : Heap T}

theorem HB.put (x : HB g h0 h0' h h') {p : Nat} (hp : g.cell p) (v : T) : HB g h0 h0' (h.put p v) (h'.put p v) := by
  refine ⟨fun q hq hn => ?_, ⟨x.left.1, fun q hq => ?_⟩, ⟨x.right.1, fun q hq => ?_⟩⟩
  · simp only [Heap.put]
    split
    · rfl
    · exact x.same q hq hn
  · simp only [Heap.put]
    rw [if_neg (by rintro rfl; exact hq hp)]
    exact x.left.2 q hq
  · simp only [Heap.put]
    rw [if_neg (by rintro rfl; exact hq hp)]
    exact x.right.2 q hq

theorem store_local (x : HB g h0 h0' h h') {p : Nat} (hp : g.cell p) (v : T) : Ends s (fun _ a _ b => HB g h0 h0' a b) (HB g h0 h0') (h.store p v) (h'.store p v) := by
  unfold Heap.store
  split
  · exact fun _ => rfl
  · exact x.put hp v

theorem HB.load (x : HB g h0 h0' h h') {p : Nat} (hp : g.cell p) : h'.load p = h.load p := by
  unfold Heap.load
  split
  · rfl
  · next hn => rw [x.same p hp hn]

theorem HB.loadAll (x : HB g h0 h0' h h') {ps : List Nat} (hp : ∀ p ∈ ps, g.cell p) : h'.loadAll ps = h.loadAll ps := by
  unfold Heap.loadAll
  induction ps with
  | nil => rfl
  | cons p ps ih =>
    unfold Res.mapM
    rw [x.load (hp p List.mem_cons_self), ih fun q hq => hp q (List.mem_cons_of_mem _ hq)]

theorem HB.eval (x : HB g h0 h0' h h') {r : Rhs T} (hr : ∀ q ∈ r.reads, g.cell q) : r.eval h' = r.eval h := by
  cases r <;> simp only [Rhs.reads, List.mem_cons, List.not_mem_nil, or_false, forall_eq_or_imp, forall_eq] at hr <;> simp only [Rhs.eval] <;>
    first
    | rw [x.load hr.1, x.load hr.2]
    | rw [x.load hr]
    | rw [x.loadAll hr]

theorem exec_local {l : List (Op T)} (hl : OpsIn g l) (x : HB g h0 h0' h h') : Ends s (fun _ a _ b => HB g h0 h0' a b) (HB g h0 h0') (exec l h) (exec l h') := by
  induction l generalizing h h' with
  | nil => exact x
  | cons o l ih =>
    unfold exec
    refine Ends.bind (R := fun _ a _ b => HB g h0 h0' a b) ?_ fun _ a _ b y => ih (fun o ho => hl o (List.mem_cons_of_mem _ ho)) y
    have ho := hl o List.mem_cons_self
    cases o with
    | nop _ => exact x
    | asg p r =>
      show Ends s _ _ (match r.eval h with
        | .ok v => h.store p v
        | .err e => .err e h
        | .panic => .panic) (match r.eval h' with
        | .ok v => h'.store p v
        | .err e => .err e h'
        | .panic => .panic)
      rw [x.eval ho.2]
      cases r.eval h with
      | ok v => exact store_local x ho.1 v
      | err _ => exact ⟨rfl, x⟩
      | panic => exact fun _ => rfl

theorem storeEach_local {ι : Type} {f f' : ι → Heap T → Res (Nat × T)} {l : List ι} (hf : ∀ i h h', HB g h0 h0' h h' → f' i h' = f i h) (hp : ∀ i h p v, f i h = .ok (p, v) → g.cell p)
    (x : HB g h0 h0' h h') : Ends s (fun _ a _ b => HB g h0 h0' a b) (HB g h0 h0') (Heap.storeEach f l h) (Heap.storeEach f' l h') := by
  induction l generalizing h h' with
  | nil => exact x
  | cons i l ih =>
    unfold Heap.storeEach
    rw [hf i h h' x]
    cases e : f i h with
    | ok pv => exact Ends.bind (store_local x (hp i h _ _ e) _) fun _ a _ b y => ih y
    | err _ => exact ⟨rfl, x⟩
    | panic => exact fun _ => rfl

theorem loadFrom_local {m t t' : Mat} (hm : ∀ q ∈ m.ops, g.cell q) (hs : t'.shape = t.shape) (he : ∀ h h', HB g h0 h0' h h' → t'.ops.map (elt h') = t.ops.map (elt h))
    (x : HB g h0 h0' h h') : Ends s (fun _ a _ b => HB g h0 h0' a b) (HB g h0 h0') (m.loadFromTensor t h) (m.loadFromTensor t' h') := by
  unfold Mat.loadFromTensor
  rw [hs]
  split
  · exact ⟨rfl, x⟩
  · have hl : t'.ops.length = t.ops.length := by simpa using congrArg List.length (he h h' x)
    rw [hl]
    refine storeEach_local (fun i a b y => ?_) (fun i a p v e => ?_) x
    · rw [loadAt_elt, loadAt_elt, he a b y]
    · obtain ⟨q, hq, e⟩ := res_bind_ok e
      cases e2 : a.loadAt t.ops i with
      | ok y => rw [e2] at e; cases e; exact hm _ (Own.index_mem hq)
      | err _ => rw [e2] at e; cases e
      | panic => rw [e2] at e; cases e

/-! ### states -/

/-- two states agree on a part, and on pairs of tensors outside -/
structure Both (g : Sd) (X : Nat → Nat → Prop) (w w' : World T) : Prop where
  left : In false g w
  right : In false g w'
  agree : Agree g w w'
  ext : ∀ x x', X x x' → tensorElements w' x' = tensorElements w x
  out : ∀ x x', X x x' → (∀ q ∈ (w.store.nodes x).mat.ops, g.cell q → q = 0) ∧ ∀ q ∈ (w'.store.nodes x').mat.ops, g.cell q → q = 0

variable {X : Nat → Nat → Prop}

/-- the same end of two calls -/
def Rel (s : Prop) (g : Sd) (X : Nat → Nat → Prop) (a a' : Run T α) (R : α → α → Prop) : Prop :=
  ∀ w w', Both g X w w' → Ends s (fun r w r' w' => Both g X w w' ∧ R r r') (Both g X) (a w) (a' w')

theorem Rel.bind {a a' : Run T α} {f f' : α → Run T β} {Q : α → α → Prop} {R : β → β → Prop} (h : Rel s g X a a' Q) (hf : ∀ x x', Q x x' → Rel s g X (f x) (f' x') R) :
    Rel s g X (a >>= f) (a' >>= f') R := fun w w' hb =>
  Ends.bind (h w w' hb) fun x w x' w' hx => hf x x' hx.2 w w' hx.1

theorem Rel.pure {R : α → α → Prop} (x x' : α) (h : R x x') : Rel s g X (Pure.pure x : Run T α) (Pure.pure x') R := fun _ _ hb => ⟨hb, h⟩

theorem Rel.abort {R : α → α → Prop} : Rel s g X (Run.abort : Run T α) Run.abort R := fun _ _ _ _ => rfl

theorem Rel.fail {R : α → α → Prop} (x : Err) : Rel s g X (Run.fail x : Run T α) (Run.fail x) R := fun _ _ hb => ⟨rfl, hb⟩

theorem Rel.deref {o : Option α} {P : α → Prop} (ho : ∀ x, o = some x → P x) : Rel s g X (Run.deref o : Run T α) (Run.deref o) fun x x' => x' = x ∧ P x := by
  cases o with
  | none => exact Rel.abort
  | some x => exact Rel.pure _ _ ⟨rfl, ho x rfl⟩

theorem Rel.net {m : Nat} (hm : g.net m) : Rel s g X (Run.net m : Run T (Net T)) (Run.net m) fun x x' => x' = x ∧ NetIn g x := fun _ _ hb =>
  ⟨hb, hb.agree.net m hm, hb.left.nets m hm⟩

theorem Rel.layer {m : Nat} (hm : g.layer m) : Rel s g X (Run.layer m : Run T (Layer T)) (Run.layer m) fun x x' => x' = x ∧ LayerIn g x := fun _ _ hb =>
  ⟨hb, hb.agree.layer m hm, hb.left.layers m hm⟩

/-- heaps that differ in the part -/
theorem both_heap (hb : Both g X w w') {h h' : Heap T} (x : HB g w.store.heap w'.store.heap h h') :
    Both g X { w with store := { w.store with heap := h } } { w' with store := { w'.store with heap := h' } } := by
  have keep : ∀ {w : World T} (h : Heap T), In false g w → HW g w.store.heap h → In false g { w with store := { w.store with heap := h } } := fun {w} h hi y =>
    ⟨(show 0 < h.next by rw [y.1]; exact hi.next), hi.zero, fun q hq => (show q < h.next by rw [y.1]; exact hi.cell q hq), hi.node, hi.layer, hi.net, hi.nodes, hi.layers, hi.nets, fun e => (by cases e)⟩
  refine ⟨keep h hb.left x.left, keep h' hb.right x.right, ⟨x.same, hb.agree.node, hb.agree.layer, hb.agree.net, hb.agree.fuel⟩, fun a a' ha => ?_, hb.out⟩
  have e := hb.ext a a' ha
  have o := hb.out a a' ha
  have out : ∀ {h0 h : Heap T} (l : List Nat), HW g h0 h → (∀ q ∈ l, g.cell q → q = 0) → l.map (elt h) = l.map (elt h0) := fun {h0 h} l y hl => by
    refine List.map_congr_left fun q hq => ?_
    unfold elt
    split
    · rfl
    · next hn => rw [y.2 q fun hc => hn (hl q hq hc)]
  have e1 := congrArg Prod.fst e
  have e2 : (w'.store.nodes a').mat.ops.map (elt w'.store.heap) = (w.store.nodes a).mat.ops.map (elt w.store.heap) := congrArg Prod.snd e
  refine Prod.ext e1 ?_
  show (w'.store.nodes a').mat.ops.map (elt h') = (w.store.nodes a).mat.ops.map (elt h)
  rw [out _ x.left o.1, out _ x.right o.2, e2]

theorem Rel.heap {f f' : Heap T → Out (Heap T) α} {R : α → α → Prop} (hf : ∀ h0 h0' h h', HB g h0 h0' h h' → Ends s (fun r a r' b => HB g h0 h0' a b ∧ R r r') (HB g h0 h0') (f h) (f' h')) :
    Rel s g X (Run.heap f) (Run.heap f') R := fun w w' hb => by
  have H := hf w.store.heap w'.store.heap w.store.heap w'.store.heap ⟨hb.agree.cell, HW.refl _, HW.refl _⟩
  unfold Run.heap
  cases e : f w.store.heap with
  | ok r a =>
    cases e' : f' w'.store.heap with
    | ok r' a' => rw [e, e'] at H; exact ⟨both_heap hb H.1, H.2⟩
    | err _ _ => rw [e, e'] at H; exact H.elim
    | panic => rw [e, e'] at H; exact H.elim
  | err r a =>
    cases e' : f' w'.store.heap with
    | ok r' a' => rw [e, e'] at H; exact H.elim
    | err _ _ => rw [e, e'] at H; exact ⟨H.1, both_heap hb H.2⟩
    | panic => rw [e, e'] at H; exact H.elim
  | panic =>
    rw [e] at H
    intro hs
    have := H hs
    dsimp only
    rw [this]

theorem Rel.unit {a a' : Out (Heap T) Unit} (H : Ends s (fun _ a _ b => HB g h0 h0' a b) (HB g h0 h0') a a') :
    Ends s (fun _ a _ b => HB g h0 h0' a b ∧ True) (HB g h0 h0') a a' := by
  cases a <;> cases a' <;> first | exact ⟨H, trivial⟩ | exact H

theorem Rel.run {o : Option (List (Op T))} (h : OptOps g o) : Rel s g X (NetM.run o : Run T Unit) (NetM.run o) fun _ _ => True := by
  unfold NetM.run
  refine Rel.bind (Rel.deref h) fun l l' hl => ?_
  rw [hl.1]
  exact Rel.heap fun _ _ _ _ x => Rel.unit (exec_local hl.2 x)

theorem Rel.setValue {p : Nat} (hp : g.cell p) (v : T) : Rel s g X (Run.setValue p v) (Run.setValue p v) fun _ _ => True :=
  Rel.heap fun _ _ _ _ x => Rel.unit (store_local x hp v)

theorem Rel.value {p : Nat} (hp : g.cell p) : Rel s g X (Run.value p : Run T T) (Run.value p) fun x x' => x' = x := fun w w' hb => by
  unfold Run.value
  have x : HB g w.store.heap w'.store.heap w.store.heap w'.store.heap := ⟨hb.agree.cell, HW.refl _, HW.refl _⟩
  rw [x.load hp]
  cases w.store.heap.load p with
  | ok v => exact ⟨hb, rfl⟩
  | err e => exact ⟨rfl, hb⟩
  | panic => exact fun _ => rfl

theorem elts_in (x : HB g h0 h0' h h') {l : List Nat} (hl : ∀ q ∈ l, g.cell q) : l.map (elt h') = l.map (elt h) := by
  refine List.map_congr_left fun q hq => ?_
  unfold elt
  split
  · rfl
  · next hn => rw [x.same q (hl q hq) hn]

theorem elts_out {h0 h : Heap T} {l : List Nat} (y : HW g h0 h) (hl : ∀ q ∈ l, g.cell q → q = 0) : l.map (elt h) = l.map (elt h0) := by
  refine List.map_congr_left fun q hq => ?_
  unfold elt
  split
  · rfl
  · next hn => rw [y.2 q fun hc => hn (hl q hq hc)]

/-- from a tensor of the part -/
theorem Rel.loadIn {p t : Nat} (hp : g.node p) (ht : g.node t) : Rel s g X (LayerM.loadFrom p t : Run T Unit) (LayerM.loadFrom p t) fun _ _ => True := fun w w' hb => by
  have H : Rel (T := T) s g X (Run.heap ((w.store.nodes p).mat.loadFromTensor (w.store.nodes t).mat)) (Run.heap ((w'.store.nodes p).mat.loadFromTensor (w'.store.nodes t).mat)) fun _ _ => True := by
    rw [hb.agree.node p hp, hb.agree.node t ht]
    exact Rel.heap fun _ _ _ _ x => Rel.unit (loadFrom_local (hb.left.nodes p hp).ops rfl (fun _ _ y => elts_in y (hb.left.nodes t ht).ops) x)
  exact H w w' hb

/-- from tensors outside -/
theorem Rel.loadOut {p t t' : Nat} (hp : g.node p) (ht : X t t') : Rel s g X (LayerM.loadFrom p t : Run T Unit) (LayerM.loadFrom p t') fun _ _ => True := fun w w' hb => by
  have e := hb.ext t t' ht
  have o := hb.out t t' ht
  have H : Ends s (fun _ a _ b => HB g w.store.heap w'.store.heap a b) (HB g w.store.heap w'.store.heap) ((w.store.nodes p).mat.loadFromTensor (w.store.nodes t).mat w.store.heap)
      ((w'.store.nodes p).mat.loadFromTensor (w'.store.nodes t').mat w'.store.heap) := by
    rw [hb.agree.node p hp]
    refine loadFrom_local (hb.left.nodes p hp).ops (congrArg Prod.fst e) (fun _ _ y => ?_) ⟨hb.agree.cell, HW.refl _, HW.refl _⟩
    rw [elts_out y.left o.1, elts_out y.right o.2]
    exact congrArg Prod.snd e
  show Ends s _ _ (Run.heap ((w.store.nodes p).mat.loadFromTensor (w.store.nodes t).mat) w) (Run.heap ((w'.store.nodes p).mat.loadFromTensor (w'.store.nodes t').mat) w')
  unfold Run.heap
  cases e1 : (w.store.nodes p).mat.loadFromTensor (w.store.nodes t).mat w.store.heap with
  | ok r a =>
    cases e2 : (w'.store.nodes p).mat.loadFromTensor (w'.store.nodes t').mat w'.store.heap with
    | ok r' a' => rw [e1, e2] at H; exact ⟨both_heap hb H, trivial⟩
    | err _ _ => rw [e1, e2] at H; exact H.elim
    | panic => rw [e1, e2] at H; exact H.elim
  | err r a =>
    cases e2 : (w'.store.nodes p).mat.loadFromTensor (w'.store.nodes t').mat w'.store.heap with
    | ok r' a' => rw [e1, e2] at H; exact H.elim
    | err _ _ => rw [e1, e2] at H; exact ⟨H.1, both_heap hb H.2⟩
    | panic => rw [e1, e2] at H; exact H.elim
  | panic =>
    rw [e1] at H
    intro hs
    have := H hs
    dsimp only
    rw [this]

/-! ### predictions -/

/-- a model that is compiled -/
theorem rel_predictOut {m x x' : Nat} (hm : g.net m) (hx : X x x') (hb : Both g X w w') (hc : (w.nets m).ff ≠ none) :
    Ends s (fun r w r' w' => Both g X w w' ∧ r' = r ∧ g.node r) (Both g X) (predictOut m x w) (predictOut m x' w') := by
  have tail : Rel s g X (do
      let x1 ← Run.net m
      let i ← Run.deref x1.input
      LayerM.loadFrom i x
      NetM.run x1.ff
      Run.deref x1.output : Run T Nat) (do
      let x1 ← Run.net m
      let i ← Run.deref x1.input
      LayerM.loadFrom i x'
      NetM.run x1.ff
      Run.deref x1.output : Run T Nat) fun r r' => r' = r ∧ g.node r := by
    refine Rel.bind (Rel.net hm) fun y y' hy => ?_
    obtain ⟨rfl, hy⟩ := hy
    refine Rel.bind (Rel.deref hy.input) fun i i' hi => ?_
    obtain ⟨rfl, hi⟩ := hi
    exact Rel.bind (Rel.loadOut hi hx) fun _ _ _ => Rel.bind (Rel.run hy.ff) fun _ _ _ => Rel.deref hy.output
  have e : ∀ (w : World T) (t : Nat), (w.nets m).ff ≠ none → predictOut m t w = (do
      let x1 ← Run.net m
      let i ← Run.deref x1.input
      LayerM.loadFrom i t
      NetM.run x1.ff
      Run.deref x1.output : Run T Nat) w := fun w t h => by
    unfold predictOut
    show (match (w.nets m).ff with
      | none => _
      | some _ => _ : Run T Nat) w = _
    cases e : (w.nets m).ff with
    | none => exact absurd e h
    | some _ => rfl
  rw [e w x hc, e w' x' (by rw [hb.agree.net m hm]; exact hc)]
  exact tail w w' hb

/-! ### training -/

theorem rel_fitOwn {l : Nat} (hl : g.layer l) : Rel s g X (LayerM.fitOwn l : Run T Unit) (LayerM.fitOwn l) fun _ _ => True := by
  unfold LayerM.fitOwn
  refine Rel.bind (Rel.layer hl) fun x x' hx => ?_
  obtain ⟨rfl, hx⟩ := hx
  have hb : Rel (T := T) s g X (match x'.bias, x'.nBias with
      | none, none => Pure.pure ()
      | some b, some nb => LayerM.loadFrom b nb
      | _, _ => Run.abort) (match x'.bias, x'.nBias with
      | none, none => Pure.pure ()
      | some b, some nb => LayerM.loadFrom b nb
      | _, _ => Run.abort) fun _ _ => True := by
    cases e1 : x'.bias with
    | none => cases e2 : x'.nBias with
      | none => exact Rel.pure _ _ trivial
      | some _ => exact Rel.abort
    | some b => cases e2 : x'.nBias with
      | none => exact Rel.abort
      | some nb => exact Rel.loadIn (hx.bias b e1) (hx.nBias nb e2)
  split
  · exact Rel.pure _ _ trivial
  · dsimp only
    cases e1 : x'.weights with
    | none => exact hb
    | some a => cases e2 : x'.nWeights with
      | none => exact hb
      | some na => exact Rel.bind (Rel.loadIn (hx.weights a e1) (hx.nWeights na e2)) fun _ _ _ => hb

theorem Rel.ignoreErr {a a' : Run T Unit} {R : Unit → Unit → Prop} (h : Rel s g X a a' R) : Rel s g X (LayerM.ignoreErr a) (LayerM.ignoreErr a') fun _ _ => True := fun w w' hb => by
  have H := h w w' hb
  unfold LayerM.ignoreErr
  cases e : a w with
  | ok r a => cases e' : a' w' with
    | ok r' a' => rw [e, e'] at H; exact ⟨H.1, trivial⟩
    | err _ _ => rw [e, e'] at H; exact H.elim
    | panic => rw [e, e'] at H; exact H.elim
  | err r a => cases e' : a' w' with
    | ok r' a' => rw [e, e'] at H; exact H.elim
    | err _ _ => rw [e, e'] at H; exact ⟨H.2, trivial⟩
    | panic => rw [e, e'] at H; exact H.elim
  | panic =>
    rw [e] at H
    intro hs
    rw [H hs]

theorem rel_fit {n n' l : Nat} (hn : n ≤ n') (hl : g.layer l) : Rel False g X (LayerM.fit n l : Run T Unit) (LayerM.fit n' l) fun _ _ => True := by
  induction n generalizing n' l with
  | zero => exact fun _ _ _ h => h.elim
  | succ n ih =>
    obtain ⟨k, rfl⟩ : ∃ k, n' = k + 1 := ⟨n' - 1, by omega⟩
    unfold LayerM.fit
    refine Rel.bind (Rel.layer hl) fun x x' hx => ?_
    obtain ⟨rfl, hx⟩ := hx
    dsimp only
    cases e : x'.pre with
    | none => exact rel_fitOwn hl
    | some q => exact Rel.bind (Rel.ignoreErr (ih (by omega) (hx.pre q e))) fun _ _ _ => rel_fitOwn hl

theorem rel_execFit {m x x' y y' : Nat} (hm : g.net m) (hx : X x x') (hy : X y y') : Rel False g X (NetM.execFit m x y : Run T Unit) (NetM.execFit m x' y') fun _ _ => True := by
  unfold NetM.execFit
  refine Rel.bind (Rel.net hm) fun p p' hp => ?_
  obtain ⟨rfl, hp⟩ := hp
  refine Rel.bind (Rel.run hp.resetFit) fun _ _ _ => Rel.bind (Rel.deref hp.input) fun i i' hi => ?_
  obtain ⟨rfl, hi⟩ := hi
  refine Rel.bind (Rel.loadOut hi hx) fun _ _ _ => Rel.bind (Rel.deref hp.target) fun t t' ht => ?_
  obtain ⟨rfl, ht⟩ := ht
  refine Rel.bind (Rel.loadOut ht hy) fun _ _ _ => Rel.bind (Rel.run hp.ff) fun _ _ _ => Rel.bind (Rel.run hp.calDif) fun _ _ _ => Rel.bind (Rel.run hp.bp) fun _ _ _ =>
    Rel.bind (Rel.deref hp.last) fun l l' hl => ?_
  obtain ⟨rfl, hl⟩ := hl
  exact Rel.bind (Q := fun n n' => n ≤ n') (fun w w' hb => ⟨hb, Nat.succ_le_succ hb.agree.fuel⟩) fun n n' hn => rel_fit hn hl

/-- a model that is compiled for training -/
theorem rel_trainOne {m x x' y y' : Nat} (hm : g.net m) (hx : X x x') (hy : X y y') (a mo : T) (hb : Both g X w w') (hc : (w.nets m).bp ≠ none) :
    Ends False (fun r w r' w' => Both g X w w' ∧ r' = r) (Both g X) (NetM.trainOne m x y a mo w) (NetM.trainOne m x' y' a mo w') := by
  have tail : Rel False g X (do
      let p ← Run.net m
      Run.setValue p.alpha a
      Run.setValue p.momentum mo
      NetM.execFit m x y
      let p ← Run.net m
      Run.value p.loss : Run T T) (do
      let p ← Run.net m
      Run.setValue p.alpha a
      Run.setValue p.momentum mo
      NetM.execFit m x' y'
      let p ← Run.net m
      Run.value p.loss : Run T T) fun r r' => r' = r := by
    refine Rel.bind (Rel.net hm) fun p p' hp => ?_
    obtain ⟨rfl, hp⟩ := hp
    refine Rel.bind (Rel.setValue hp.alpha a) fun _ _ _ => Rel.bind (Rel.setValue hp.momentum mo) fun _ _ _ => Rel.bind (rel_execFit hm hx hy) fun _ _ _ =>
      Rel.bind (Rel.net hm) fun p p' hp => ?_
    obtain ⟨rfl, hp⟩ := hp
    exact Rel.value hp.loss
  have e : ∀ (w : World T) (x y : Nat), (w.nets m).bp ≠ none → NetM.trainOne m x y a mo w = (do
      let p ← Run.net m
      Run.setValue p.alpha a
      Run.setValue p.momentum mo
      NetM.execFit m x y
      let p ← Run.net m
      Run.value p.loss : Run T T) w := fun w x y h => by
    unfold NetM.trainOne
    show (match (w.nets m).bp with
      | none => _
      | some _ => _ : Run T T) w = _
    cases e : (w.nets m).bp with
    | none => exact absurd e h
    | some _ => rfl
  rw [e w x y hc, e w' x' y' (by rw [hb.agree.net m hm]; exact hc)]
  exact tail w w' hb

theorem Rel.each {ι : Type} {l : List ι} {f f' : ι → Run T Unit} (h : ∀ i ∈ l, Rel s g X (f i) (f' i) fun _ _ => True) : Rel s g X (Run.each l f) (Run.each l f') fun _ _ => True := by
  induction l with
  | nil => exact Rel.pure _ _ trivial
  | cons i l ih => exact Rel.bind (h i List.mem_cons_self) fun _ _ _ => ih fun j hj => h j (List.mem_cons_of_mem _ hj)

theorem Rel.index {l l' : List Nat} (h : List.Forall₂ X l l') (k : Nat) : Rel (T := T) s g X (Run.lift (Res.index l k)) (Run.lift (Res.index l' k)) X := by
  induction h generalizing k with
  | nil => exact fun _ _ _ _ => rfl
  | cons hx _ ih =>
    cases k with
    | zero => exact fun _ _ hb => ⟨hb, hx⟩
    | succ k => exact ih k

/-- a model that is compiled for training -/
theorem rel_train {m : Nat} {xs xs' ys ys' : List Nat} (hm : g.net m) (hx : List.Forall₂ X xs xs') (hy : List.Forall₂ X ys ys') (ep ba : Nat) (a mo : T) (d : Nat → Nat)
    (hb : Both g X w w') (hc : (w.nets m).bp ≠ none) :
    Ends False (fun _ w _ w' => Both g X w w' ∧ True) (Both g X) (NetM.train m xs ys ep ba a mo d w) (NetM.train m xs' ys' ep ba a mo d w') := by
  unfold NetM.train
  rw [← hx.length_eq, ← hy.length_eq]
  split
  · exact Rel.fail _ w w' hb
  have tail : Rel False g X (do
      let p ← Run.net m
      Run.setValue p.alpha a
      Run.setValue p.momentum mo
      let batch := if ba = 0 then xs.length else ba
      if xs.length = 0 ∧ ep * batch ≠ 0 then Run.abort
      else
        NetM.trainLoop m xs ys ((List.range (ep * batch)).map fun k => d k % xs.length)
        let _ ← Run.value p.loss
        return () : Run T Unit) (do
      let p ← Run.net m
      Run.setValue p.alpha a
      Run.setValue p.momentum mo
      let batch := if ba = 0 then xs.length else ba
      if xs.length = 0 ∧ ep * batch ≠ 0 then Run.abort
      else
        NetM.trainLoop m xs' ys' ((List.range (ep * batch)).map fun k => d k % xs.length)
        let _ ← Run.value p.loss
        return () : Run T Unit) fun _ _ => True := by
    refine Rel.bind (Rel.net hm) fun p p' hp => ?_
    obtain ⟨rfl, hp⟩ := hp
    refine Rel.bind (Rel.setValue hp.alpha a) fun _ _ _ => Rel.bind (Rel.setValue hp.momentum mo) fun _ _ _ => ?_
    dsimp only
    generalize (if ba = 0 then xs.length else ba) = n
    split
    · exact Rel.abort
    · refine Rel.bind (Q := fun _ _ => True) ?_ fun _ _ _ => Rel.bind (Rel.value hp.loss) fun _ _ _ => Rel.pure _ _ trivial
      exact Rel.each fun k _ => Rel.bind (Rel.index hx k) fun _ _ h1 => Rel.bind (Rel.index hy k) fun _ _ h2 => rel_execFit hm h1 h2
  have hc' : (w'.nets m).bp ≠ none := by rw [hb.agree.net m hm]; exact hc
  show Ends False _ _ ((match (w.nets m).bp with
    | none => _
    | some _ => _ : Run T Unit) w) ((match (w'.nets m).bp with
    | none => _
    | some _ => _ : Run T Unit) w')
  cases e : (w.nets m).bp with
  | none => exact absurd e hc
  | some _ =>
    cases e' : (w'.nets m).bp with
    | none => exact absurd e' hc'
    | some _ => exact tail w w' hb

end Side
end Godeep
