import Verif.Lemmas.SideFin
/-
  The elementary steps stay in the part.
-/
set_option linter.unusedSectionVars false

namespace Godeep
open Spec GoNum

variable {T : Type} [GoNum T] {α β : Type}

namespace Side

variable {b b1 b2 : Bool} {g g' : Sd} {w w' : World T}

/-- tensors are closed, for cells `C` and tensors `N` -/
structure SIn (C N : Nat → Prop) (s : Store T) : Prop where
  next : 0 < s.heap.next
  zero : C 0
  cell : ∀ q, C q → q < s.heap.next
  nodes : ∀ n, N n → NodeIn ⟨C, N, fun _ => False, fun _ => False⟩ (s.nodes n)
  ctx : ∀ o ∈ s.ctx, OpC C o

/-- only the cells and tensors of the part change -/
structure SStep (N C : Nat → Prop) (s : Store T) (C' : Nat → Prop) (s' : Store T) : Prop where
  ext : Extends s.heap s'.heap
  le : ∀ q, C q → C' q
  new : ∀ q, C' q → C q ∨ s.heap.next ≤ q
  node : ∀ n, ¬ N n → s'.nodes n = s.nodes n

theorem SStep.refl (N C : Nat → Prop) (s : Store T) : SStep N C s C s := ⟨ext_refl _, fun _ h => h, fun _ h => .inl h, fun _ _ => rfl⟩

theorem SStep.trans {N C C' C'' : Nat → Prop} {s s' s'' : Store T} (h : SStep N C s C' s') (h' : SStep N C' s' C'' s'') : SStep N C s C'' s'' :=
  ⟨ext_trans h.ext h'.ext, fun q x => h'.le q (h.le q x), fun q x => (h'.new q x).elim (h.new q) fun y => .inr (le_trans h.ext.1 y),
    fun n hn => (h'.node n hn).trans (h.node n hn)⟩

/-- after work on tensors -/
def SOk (N C : Nat → Prop) (s s' : Store T) : Prop := ∃ C', SStep N C s C' s' ∧ SIn C' N s'

theorem finish_ok {C N : Nat → Prop} {s : Store T} (h : SIn C N s) {n : Nat} (hn : N n) : EndsIn (SOk N C s) (Store.finish n s) := by
  have x := h.nodes n hn
  have key := run_good (P := C) (fun m => (s.nodes m).mat) (s.nodes n).kind ⟨s.heap, s.ctx, (s.nodes n).mat⟩ h.zero
    (fun t ht q hq => (h.nodes t (x.kids t ht)).ops q hq) x.ptrs x.ops h.ctx
  have fin : ∀ f : FSt T, Good s.heap C f → SOk N C s { (s.setNode n { s.nodes n with mat := f.mat }) with heap := f.heap, ctx := f.ctx } := by
    intro f hf
    have e : ∀ k, ({ (s.setNode n { s.nodes n with mat := f.mat }) with heap := f.heap, ctx := f.ctx } : Store T).nodes k =
      if k = n then { s.nodes n with mat := f.mat } else s.nodes k := fun _ => rfl
    refine ⟨Own.Got s.heap f.heap C, ⟨hf.ext, fun q hq => .inl hq, fun q hq => hq.imp id fun y => y.1, fun k hk => ?_⟩, ?_⟩
    · rw [e, if_neg (by rintro rfl; exact hk hn)]
    · refine ⟨lt_of_lt_of_le h.next hf.ext.1, .inl h.zero, fun q hq => ?_, fun k hk => ?_, hf.ctx⟩
      · rcases hq with hq | hq
        · exact lt_of_lt_of_le (h.cell q hq) hf.ext.1
        · exact hq.2
      · rw [e]
        split
        · exact ⟨hf.mat, x.kids, fun q hq => .inl (x.ptrs q hq)⟩
        · have y := h.nodes k hk
          exact ⟨fun q hq => .inl (y.ops q hq), y.kids, fun q hq => .inl (y.ptrs q hq)⟩
  unfold Store.finish
  dsimp only
  cases e : Fin.run (fun m => (s.nodes m).mat) (s.nodes n).kind ⟨s.heap, s.ctx, (s.nodes n).mat⟩ with
  | ok _ f => rw [e] at key; exact fin f key
  | err _ f => rw [e] at key; exact fin f key
  | panic => trivial

theorem build_ok {N : Nat → Prop} (fuel : Nat) {n : Nat} {C : Nat → Prop} {s : Store T} (h : SIn C N s) (hn : N n) : EndsIn (SOk N C s) (Store.build fuel n s) := by
  induction fuel generalizing n C s with
  | zero => trivial
  | succ fuel ih =>
    unfold Store.build
    split
    · exact ⟨C, SStep.refl N C s, h⟩
    · have each : ∀ (l : List Nat) (C0 : Nat → Prop) (s0 : Store T), SIn C0 N s0 → (∀ c ∈ l, N c) → EndsIn (SOk N C0 s0) (Store.each (fun c s => Store.build fuel c s) l s0) := by
        intro l
        induction l with
        | nil => exact fun C0 s0 h0 _ => ⟨C0, SStep.refl N C0 s0, h0⟩
        | cons c l ihl =>
          intro C0 s0 h0 hl
          unfold Store.each
          refine EndsIn.bind (ih h0 (hl c List.mem_cons_self)) (fun _ h => h) fun _ s1 ⟨C1, t1, i1⟩ => ?_
          exact (ihl C1 s1 i1 fun c hc => hl c (List.mem_cons_of_mem _ hc)).mono fun s2 ⟨C2, t2, i2⟩ => ⟨C2, t1.trans t2, i2⟩
      have e : ∀ k, (s.setNode n { s.nodes n with built := true }).nodes k = if k = n then { s.nodes n with built := true } else s.nodes k := fun _ => rfl
      have i0 : SIn C N (s.setNode n { s.nodes n with built := true }) := by
        refine ⟨h.next, h.zero, h.cell, fun k hk => ?_, h.ctx⟩
        rw [e]
        split
        · exact ⟨(h.nodes n hn).ops, (h.nodes n hn).kids, (h.nodes n hn).ptrs⟩
        · exact h.nodes k hk
      have t0 : SStep N C s C (s.setNode n { s.nodes n with built := true }) :=
        ⟨ext_refl _, fun _ h => h, fun _ h => .inl h, fun k hk => by rw [e, if_neg (by rintro rfl; exact hk hn)]⟩
      refine EndsIn.bind ((each _ C _ i0 (h.nodes n hn).kids).mono fun s1 ⟨C1, t1, i1⟩ => ⟨C1, t0.trans t1, i1⟩) (fun _ h => h) fun _ s1 ⟨C1, t1, i1⟩ => ?_
      exact (finish_ok i1 hn).mono fun s2 ⟨C2, t2, i2⟩ => ⟨C2, t1.trans t2, i2⟩

/-- the part with other cells -/
theorem store_ok (hi : In true g w) {s : Store T} (h : SOk g.node g.cell w.store s) :
    ∃ g', Le g g' ∧ Step g w g' { w with store := s } ∧ In true g' { w with store := s } := by
  obtain ⟨C, t, i⟩ := h
  have hl : Le g { g with cell := C } := ⟨t.le, fun _ h => h, fun _ h => h, fun _ h => h⟩
  refine ⟨{ g with cell := C }, hl, ⟨t.ext.1, le_refl _, le_refl _, le_refl _, t.new, fun _ h => .inl h, fun _ h => .inl h, fun _ h => .inl h,
    fun q hq _ => t.ext.2 q hq, fun n _ hn => t.node n hn, fun _ _ _ => rfl, fun _ _ _ => rfl⟩,
    ⟨i.next, i.zero, i.cell, hi.node, hi.layer, hi.net, fun n hn => ?_, fun l hl' => (hi.layers l hl').le hl, fun m hm => (hi.nets m hm).le hl, fun _ => i.ctx⟩⟩
  exact ⟨(i.nodes n hn).ops, (i.nodes n hn).kids, (i.nodes n hn).ptrs⟩

theorem In.store (hi : In true g w) : SIn g.cell g.node w.store :=
  ⟨hi.next, hi.zero, hi.cell, fun n hn => ⟨(hi.nodes n hn).ops, (hi.nodes n hn).kids, (hi.nodes n hn).ptrs⟩, hi.ctx rfl⟩

theorem Cl.buildGraph {n : Nat} (h : g.node n) : Cl true g (Run.buildGraph n : Run T Unit) fun _ _ => True := by
  intro w hi
  have H := build_ok (n + 1) hi.store h
  unfold Run.buildGraph Run.store
  cases e : Store.build (n + 1) n w.store with
  | ok _ s => rw [e] at H; obtain ⟨g', h1, h2, h3⟩ := store_ok hi H; exact ⟨g', h1, h2, h3, trivial⟩
  | err _ s => rw [e] at H; obtain ⟨g', h1, h2, h3⟩ := store_ok hi H; exact ⟨g', h1, h2, h3.forget⟩
  | panic => trivial

theorem Cl.ignoreBuild {n : Nat} (h : g.node n) : Cl true g (LayerM.ignoreErr (Run.buildGraph n) : Run T Unit) fun _ _ => True := by
  intro w hi
  have H := build_ok (n + 1) hi.store h
  unfold LayerM.ignoreErr Run.buildGraph Run.store
  cases e : Store.build (n + 1) n w.store with
  | ok _ s => rw [e] at H; obtain ⟨g', h1, h2, h3⟩ := store_ok hi H; exact ⟨g', h1, h2, h3, trivial⟩
  | err _ s => rw [e] at H; obtain ⟨g', h1, h2, h3⟩ := store_ok hi H; exact ⟨g', h1, h2, h3, trivial⟩
  | panic => trivial

/-! ### context and scalars -/

/-- the same state with other scalars and another context -/
theorem put_ok (hi : In b1 g w) {h : Heap T} {c : List (Op T)} {C : Nat → Prop} (hn : w.store.heap.next ≤ h.next) (hC : ∀ q, g.cell q → C q)
    (hb : ∀ q, C q → q < h.next) (hnew : ∀ q, C q → g.cell q ∨ w.store.heap.next ≤ q)
    (hv : ∀ q, q < w.store.heap.next → ¬ g.cell q → h.val q = w.store.heap.val q) (hc : b2 = true → ∀ o ∈ c, OpC C o) :
    Le g { g with cell := C } ∧ Step g w { g with cell := C } { w with store := { w.store with heap := h, ctx := c } } ∧
      In b2 { g with cell := C } { w with store := { w.store with heap := h, ctx := c } } := by
  have hl : Le g { g with cell := C } := ⟨hC, fun _ h => h, fun _ h => h, fun _ h => h⟩
  exact ⟨hl, ⟨hn, le_refl _, le_refl _, le_refl _, hnew, fun _ h => .inl h, fun _ h => .inl h, fun _ h => .inl h, hv, fun _ _ _ => rfl, fun _ _ _ => rfl, fun _ _ _ => rfl⟩,
    ⟨lt_of_lt_of_le hi.next hn, hC _ hi.zero, hb, hi.node, hi.layer, hi.net, fun n h => (hi.nodes n h).le hl, fun n h => (hi.layers n h).le hl, fun n h => (hi.nets n h).le hl, hc⟩⟩

theorem Cl.push {o : Op T} (ho : OpIn g o) : Cl true g (Run.push o) fun _ _ => True := by
  intro w hi
  obtain ⟨h1, h2, h3⟩ := put_ok (b2 := true) hi (h := w.store.heap) (c := w.store.ctx ++ [o]) (C := g.cell) (le_refl _) (fun _ h => h) hi.cell (fun _ h => .inl h) (fun _ _ _ => rfl)
    (fun _ x hx => by
      rcases List.mem_append.1 hx with hx | hx
      · exact hi.ctx rfl x hx
      · rw [List.mem_singleton.1 hx]; exact ho)
  exact ⟨_, h1, h2, h3, trivial⟩

theorem Cl.newCtx : Cl2 b true g (Run.newCtx : Run T Unit) fun _ _ => True := by
  intro w hi
  obtain ⟨h1, h2, h3⟩ := put_ok (b2 := true) hi (h := w.store.heap) (c := []) (C := g.cell) (le_refl _) (fun _ h => h) hi.cell (fun _ h => .inl h) (fun _ _ _ => rfl) (fun _ x hx => by cases hx)
  exact ⟨_, h1, h2, h3, trivial⟩

/-- work on the scalars -/
def HOk (g : Sd) (h : Heap T) (C : Nat → Prop) (h' : Heap T) : Prop :=
  h.next ≤ h'.next ∧ (∀ q, g.cell q → C q) ∧ (∀ q, C q → q < h'.next) ∧ (∀ q, C q → g.cell q ∨ h.next ≤ q) ∧ ∀ q, q < h.next → ¬ g.cell q → h'.val q = h.val q

theorem Cl.heap {f : Heap T → Out (Heap T) α} {Q : Sd → α → Prop} (hf : ∀ h, (∀ q, g.cell q → q < h.next) → match f h with
      | .ok x h' => ∃ C, HOk g h C h' ∧ Q { g with cell := C } x
      | .err _ h' => ∃ C, HOk g h C h'
      | .panic => True) : Cl b g (Run.heap f) Q := by
  intro w hi
  have H := hf w.store.heap hi.cell
  unfold Run.heap
  cases e : f w.store.heap with
  | ok x h =>
    rw [e] at H
    obtain ⟨C, ⟨k1, k2, k3, k4, k5⟩, q⟩ := H
    obtain ⟨h1, h2, h3⟩ := put_ok (b2 := b) hi (c := w.store.ctx) k1 k2 k3 k4 k5 fun hb o ho => (hi.ctx hb o ho).mono k2
    exact ⟨_, h1, h2, h3, q⟩
  | err x h =>
    rw [e] at H
    obtain ⟨C, ⟨k1, k2, k3, k4, k5⟩⟩ := H
    obtain ⟨h1, h2, h3⟩ := put_ok (b2 := b) hi (c := w.store.ctx) k1 k2 k3 k4 k5 fun hb o ho => (hi.ctx hb o ho).mono k2
    exact ⟨_, h1, h2, h3.forget⟩
  | panic => trivial

theorem Cl.scalar (v : T) : Cl b g (Run.scalar v) fun g' p => g'.cell p :=
  Cl.heap fun h hb => ⟨fun q => g.cell q ∨ q = h.next, ⟨Nat.le_succ _, fun _ x => .inl x, fun q x => x.elim (fun y => Nat.lt_succ_of_lt (hb q y)) fun y => by rw [y]; exact Nat.lt_succ_self _,
    fun q x => x.imp id fun y => by rw [y], fun q hq _ => by simp only [Heap.alloc]; rw [if_neg (by omega)]⟩, .inr rfl⟩

theorem Cl.emit {r : Rhs T} (h : ∀ q ∈ r.reads, g.cell q) : Cl true g (Run.emit r) fun g' p => g'.cell p :=
  Cl.bind (Cl.scalar _) fun g1 p l1 h1 => Cl.bind (Cl.push ⟨h1, fun q hq => l1.cell _ (h q hq)⟩) fun g2 _ l2 _ => Cl.pure p (l2.cell _ h1)

/-- writing to cells of the part -/
def HW (g : Sd) (h h' : Heap T) : Prop := h'.next = h.next ∧ ∀ q, ¬ g.cell q → h'.val q = h.val q

theorem HW.refl (h : Heap T) : HW g h h := ⟨rfl, fun _ _ => rfl⟩

theorem HW.trans {h h' h'' : Heap T} (x : HW g h h') (y : HW g h' h'') : HW g h h'' := ⟨y.1.trans x.1, fun q hq => (y.2 q hq).trans (x.2 q hq)⟩

theorem store_hw {p : Nat} (hp : g.cell p) (v : T) (h : Heap T) : EndsIn (HW g h) (h.store p v) := by
  unfold Heap.store
  split
  · trivial
  · refine ⟨rfl, fun q hq => ?_⟩
    simp only [Heap.put]
    rw [if_neg (by rintro rfl; exact hq hp)]

theorem Cl.write {f : Heap T → Out (Heap T) α} (hf : ∀ h, EndsIn (HW g h) (f h)) : Cl b g (Run.heap f) fun _ _ => True :=
  Cl.heap fun h hb => by
    have H := hf h
    have ok : ∀ h', HW g h h' → HOk g h g.cell h' := fun h' x =>
      ⟨le_of_eq x.1.symm, fun _ y => y, fun q y => by rw [x.1]; exact hb q y, fun _ y => .inl y, fun q _ hq => x.2 q hq⟩
    cases e : f h with
    | ok _ h' => rw [e] at H; exact ⟨g.cell, ok h' H, trivial⟩
    | err _ h' => rw [e] at H; exact ⟨g.cell, ok h' H⟩
    | panic => trivial

theorem Cl.setValue {p : Nat} (hp : g.cell p) (v : T) : Cl b g (Run.setValue p v) fun _ _ => True := Cl.write fun h => store_hw hp v h

theorem exec_hw {l : List (Op T)} (hl : OpsIn g l) (h : Heap T) : EndsIn (HW g h) (exec l h) := by
  induction l generalizing h with
  | nil => exact HW.refl h
  | cons o l ih =>
    unfold exec
    have ho : EndsIn (HW g h) (o.cal h) := by
      have x := hl o List.mem_cons_self
      cases o with
      | nop _ => exact HW.refl h
      | asg p r =>
        show EndsIn _ (match r.eval h with
          | .ok v => h.store p v
          | .err e => .err e h
          | .panic => .panic)
        cases r.eval h with
        | ok v => exact store_hw x.1 v h
        | err _ => exact HW.refl h
        | panic => trivial
    exact EndsIn.bind ho (fun _ h => h) fun _ h1 x1 => (ih (fun o ho => hl o (List.mem_cons_of_mem _ ho)) h1).mono fun _ x2 => x1.trans x2

theorem Cl.run {o : Option (List (Op T))} (h : OptOps g o) : Cl b g (NetM.run o) fun _ _ => True := by
  unfold NetM.run
  refine Cl.bind (Cl.deref (P := fun g' l => OpsIn g' l) h) fun g1 l _ h1 => ?_
  exact Cl.write fun h => exec_hw h1 h

theorem storeEach_hw {ι : Type} {f : ι → Heap T → Res (Nat × T)} {l : List ι} (hf : ∀ i h p v, f i h = .ok (p, v) → g.cell p) (h : Heap T) :
    EndsIn (HW g h) (Heap.storeEach f l h) := by
  induction l generalizing h with
  | nil => exact HW.refl h
  | cons i l ih =>
    unfold Heap.storeEach
    cases e : f i h with
    | ok pv => exact EndsIn.bind (store_hw (hf i h _ _ e) _ h) (fun _ h => h) fun _ h1 x1 => (ih h1).mono fun _ x2 => x1.trans x2
    | err _ => exact HW.refl h
    | panic => trivial

/-- `LoadFromTensor`: the source may be outside -/
theorem Cl.loadFrom {p : Nat} (t : Nat) (h : g.node p) : Cl b g (LayerM.loadFrom p t : Run T Unit) fun _ _ => True := by
  refine Cl.bind (Cl.mat h) fun g1 m1 l1 h1 => Cl.bind (Cl.matAny t) fun g2 m2 l2 _ => Cl.write fun h => ?_
  unfold Mat.loadFromTensor
  split
  · exact HW.refl h
  · refine storeEach_hw (fun i h p' v e => ?_) _
    obtain ⟨x, hx, e⟩ := res_bind_ok e
    cases e2 : h.loadAt m2.ops i with
    | ok y => rw [e2] at e; cases e; exact l2.cell _ (h1 _ (Own.index_mem hx))
    | err _ => rw [e2] at e; cases e
    | panic => rw [e2] at e; cases e

/-! ### tensors -/

theorem Cl.newNode {x : Node T} (h : NodeIn g x) : Cl b g (Run.newNode x) fun g' n => g'.node n := by
  intro w hi
  have e : ∀ k, (w.store.setNode w.nodeNext x).nodes k = if k = w.nodeNext then x else w.store.nodes k := fun _ => rfl
  have hl : Le g { g with node := fun n => g.node n ∨ n = w.nodeNext } := ⟨fun _ h => h, fun _ h => .inl h, fun _ h => h, fun _ h => h⟩
  refine ⟨{ g with node := fun n => g.node n ∨ n = w.nodeNext }, hl, ⟨le_refl _, Nat.le_succ _, le_refl _, le_refl _, fun _ h => .inl h, fun _ h => h.imp id fun y => by rw [y],
    fun _ h => .inl h, fun _ h => .inl h, fun _ _ _ => rfl, fun n hn _ => ?_, fun _ _ _ => rfl, fun _ _ _ => rfl⟩,
    ⟨hi.next, hi.zero, hi.cell, fun n hn => hn.elim (fun y => Nat.lt_succ_of_lt (hi.node n y)) fun y => by rw [y]; exact Nat.lt_succ_self _, hi.layer, hi.net, fun n hn => ?_,
    fun l h => (hi.layers l h).le hl, fun m h => (hi.nets m h).le hl, hi.ctx⟩, .inr rfl⟩
  · show (w.store.setNode w.nodeNext x).nodes n = _
    rw [e, if_neg (by omega)]
  · show NodeIn _ ((w.store.setNode w.nodeNext x).nodes n)
    rw [e]
    split
    · exact h.le hl
    · next hne => exact (hi.nodes n (hn.resolve_right hne)).le hl

theorem Cl.lazy {k : Kind T} (h1 : ∀ t ∈ k.kids, g.node t) (h2 : ∀ q ∈ ptrs k, g.cell q) : Cl b g (Run.lazy k) fun g' n => g'.node n :=
  Cl.newNode ⟨fun q hq => (by cases hq), h1, h2⟩

theorem Cl.reshape {t : Nat} (h : g.node t) (sh : List Nat) : Cl b g (Run.reshape t sh : Run T Nat) fun g' n => g'.node n :=
  Cl.newNode ⟨fun q hq => (by cases hq), fun k hk => (by rw [List.mem_singleton.1 hk]; exact h), fun q hq => by cases hq⟩

theorem Cl.flatten {t : Nat} (h : g.node t) : Cl b g (Run.flatten t : Run T Nat) fun g' n => g'.node n :=
  Cl.bind (Cl.matAny t) fun _ _ l1 _ => Cl.reshape (l1.node _ h) _

/-- elements are new cells or cells of the part -/
def Allocs (g : Sd) (f : Heap T → Out (Heap T) Mat) : Prop := ∀ h, match f h with
  | .ok m h' => Extends h h' ∧ ∀ q ∈ m.ops, g.cell q ∨ (h.next ≤ q ∧ q < h'.next)
  | .err _ h' => Extends h h'
  | .panic => True

theorem Cl.leaf {f : Heap T → Out (Heap T) Mat} (hf : Allocs g f) : Cl b g (Run.leaf f) fun g' n => g'.node n := by
  refine Cl.bind (Q := fun g' m => ∀ q ∈ m.ops, g'.cell q) (Cl.heap fun h hb => ?_) fun g1 m _ h1 => Cl.newNode ⟨h1, fun k hk => (by cases hk), fun q hq => by cases hq⟩
  have H := hf h
  have ok : ∀ h', Extends h h' → HOk g h (fun q => g.cell q ∨ (h.next ≤ q ∧ q < h'.next)) h' := fun h' x =>
    ⟨x.1, fun _ y => .inl y, fun q y => y.elim (fun z => lt_of_lt_of_le (hb q z) x.1) fun z => z.2, fun q y => y.imp id fun z => z.1, fun q hq _ => x.2 q hq⟩
  cases e : f h with
  | ok m h' => rw [e] at H; exact ⟨_, ok h' H.1, H.2⟩
  | err _ h' => rw [e] at H; exact ⟨_, ok h' H⟩
  | panic => trivial

theorem allocs_own {f : Heap T → Out (Heap T) Mat} (hf : Own.Allocs f) : Allocs g f := fun h => by
  have H := hf h
  cases e : f h with
  | ok m h' => rw [e] at H; exact ⟨H.1, fun q hq => .inr (H.2 q hq)⟩
  | err _ h' => rw [e] at H; exact H
  | panic => trivial

theorem Cl.zeros (sh : List Nat) : Cl b g (Run.zeros sh : Run T Nat) fun g' n => g'.node n := Cl.leaf (allocs_own (Own.allocs_map fun _ => rfl))

theorem Cl.normRand (sh : List Nat) : Cl b g (Run.normRand sh : Run T Nat) fun g' n => g'.node n := by
  intro w hi
  have H := Cl.leaf (b := b) (g := g) (f := Mat.newRand (w.rnd w.draws) sh) (allocs_own (Own.allocs_map fun _ => rfl)) { w with draws := w.draws + 1 }
    ⟨hi.next, hi.zero, hi.cell, hi.node, hi.layer, hi.net, hi.nodes, hi.layers, hi.nets, hi.ctx⟩
  unfold Run.normRand
  have up : ∀ {g' w'}, Step g { w with draws := w.draws + 1 } g' w' → Step g w g' w' := fun s =>
    ⟨s.ncell, s.nnode, s.nlayer, s.nnet, s.gcell, s.gnode, s.glayer, s.gnet, s.cell, s.node, s.layer, s.net⟩
  cases e : Run.leaf (Mat.newRand (w.rnd w.draws) sh) { w with draws := w.draws + 1 } with
  | ok x w' => rw [e] at H; obtain ⟨g', h1, h2, h3, h4⟩ := H; exact ⟨g', h1, up h2, h3, h4⟩
  | err x w' => rw [e] at H; obtain ⟨g', h1, h2, h3⟩ := H; exact ⟨g', h1, up h2, h3⟩
  | panic => trivial

/-- the tensor copied may be outside -/
theorem Cl.copyTensor (n : Nat) : Cl b g (NetM.copyTensor n : Run T Nat) fun g' n => g'.node n :=
  Cl.bind (Cl.matAny n) fun _ _ _ _ => Cl.leaf (allocs_own (Own.allocs_map fun _ => rfl))

theorem Cl.transfer {f t : Nat} (h1 : g.node f) (h2 : g.node t) : Cl true g (Run.transfer f t : Run T Unit) fun _ _ => True :=
  Cl.bind (Cl.lazy (fun k hk => by
    simp only [Kind.kids, List.mem_cons, List.not_mem_nil, or_false] at hk
    rcases hk with rfl | rfl
    · exact h1
    · exact h2) fun q hq => by cases hq) fun _ _ _ h => Cl.buildGraph h

theorem Cl.fill {t v : Nat} (h1 : g.node t) (h2 : g.cell v) : Cl true g (Run.fill t v : Run T Unit) fun _ _ => True :=
  Cl.bind (Cl.lazy (fun k hk => by rw [List.mem_singleton.1 hk]; exact h1) fun q hq => by rw [List.mem_singleton.1 hq]; exact h2) fun _ _ _ h => Cl.buildGraph h

theorem Cl.matNode {n : Nat} (h : g.node n) : Cl b g (NetM.matNode n : Run T Nat) fun g' k => g'.node k := fun w hi =>
  Cl.newNode (x := ⟨.leaf, (w.store.nodes n).mat, (w.store.nodes n).built⟩) ⟨(hi.nodes n h).ops, fun k hk => (by cases hk), fun q hq => by cases hq⟩ w hi

/-- another flag -/
theorem flag_ok (hi : In b g w) {n : Nat} (hn : g.node n) (f : Bool) {c : List (Op T)} (hc : b = true → OpsIn g c) :
    Step g w g { w with store := { w.store.setNode n { w.store.nodes n with built := f } with ctx := c } } ∧
    In b g { w with store := { w.store.setNode n { w.store.nodes n with built := f } with ctx := c } } := by
  have e : ∀ k, (w.store.setNode n { w.store.nodes n with built := f }).nodes k = if k = n then { w.store.nodes n with built := f } else w.store.nodes k := fun _ => rfl
  refine ⟨⟨le_refl _, le_refl _, le_refl _, le_refl _, fun _ h => .inl h, fun _ h => .inl h, fun _ h => .inl h, fun _ h => .inl h, fun _ _ _ => rfl,
    fun k _ hk => ?_, fun _ _ _ => rfl, fun _ _ _ => rfl⟩, ⟨hi.next, hi.zero, hi.cell, hi.node, hi.layer, hi.net, fun k hk => ?_, hi.layers, hi.nets, hc⟩⟩
  · show (w.store.setNode n { w.store.nodes n with built := f }).nodes k = _
    rw [e, if_neg (by rintro rfl; exact hk hn)]
  · show NodeIn _ ((w.store.setNode n { w.store.nodes n with built := f }).nodes k)
    rw [e]
    split
    · exact ⟨(hi.nodes n hn).ops, (hi.nodes n hn).kids, (hi.nodes n hn).ptrs⟩
    · exact hi.nodes k hk

theorem Cl.setBuild {n : Nat} (h : g.node n) (f : Bool) : Cl b g (NetM.setBuild n f : Run T Unit) fun _ _ => True := fun w hi => by
  obtain ⟨x, y⟩ := flag_ok hi h f (c := w.store.ctx) hi.ctx
  exact ⟨g, Le.refl g, x, y, trivial⟩

theorem Cl.buildMat {n : Nat} (h : g.node n) : Cl true g (NetM.buildMat n : Run T Unit) fun _ _ => True := fun w hi => by
  unfold NetM.buildMat
  dsimp only
  by_cases hb : (w.store.nodes n).built = true
  · rw [if_pos hb]; exact ⟨g, Le.refl g, Step.refl g w, hi, trivial⟩
  · rw [if_neg hb]
    obtain ⟨x, y⟩ := flag_ok hi h true (c := w.store.ctx ++ (w.store.nodes n).mat.ops.map Op.nop) (fun _ o ho => by
      rcases List.mem_append.1 ho with ho | ho
      · exact hi.ctx rfl o ho
      · obtain ⟨p, _, rfl⟩ := List.mem_map.1 ho; trivial)
    exact ⟨g, Le.refl g, x, y, trivial⟩

/-! ### layers and models -/

theorem Cl.modify {l : Nat} {f : Layer T → Layer T} (hl : g.layer l) (h : ∀ x, LayerIn g x → LayerIn g (f x)) : Cl b g (Run.modify l f) fun _ _ => True := fun w hi => by
  refine ⟨g, Le.refl g, ⟨le_refl _, le_refl _, le_refl _, le_refl _, fun _ h => .inl h, fun _ h => .inl h, fun _ h => .inl h, fun _ h => .inl h, fun _ _ _ => rfl,
    fun _ _ _ => rfl, fun k _ hk => ?_, fun _ _ _ => rfl⟩, ⟨hi.next, hi.zero, hi.cell, hi.node, hi.layer, hi.net, hi.nodes, fun k hk => ?_, hi.nets, hi.ctx⟩, trivial⟩
  · show (if k = l then f (w.layers k) else w.layers k) = _
    rw [if_neg (by rintro rfl; exact hk hl)]
  · show LayerIn g (if k = l then f (w.layers k) else w.layers k)
    split
    · exact h _ (hi.layers k hk)
    · exact hi.layers k hk

theorem Cl.newLayer {x : Layer T} (h : LayerIn g x) : Cl b g (Run.newLayer x) fun g' l => g'.layer l := fun w hi => by
  have hl : Le g { g with layer := fun n => g.layer n ∨ n = w.layerNext } := ⟨fun _ h => h, fun _ h => h, fun _ h => .inl h, fun _ h => h⟩
  refine ⟨{ g with layer := fun n => g.layer n ∨ n = w.layerNext }, hl, ⟨le_refl _, le_refl _, Nat.le_succ _, le_refl _, fun _ h => .inl h, fun _ h => .inl h,
    fun _ h => h.imp id fun y => (by rw [y]), fun _ h => .inl h, fun _ _ _ => rfl, fun _ _ _ => rfl, fun k hk _ => ?_, fun _ _ _ => rfl⟩,
    ⟨hi.next, hi.zero, hi.cell, hi.node, fun n hn => hn.elim (fun y => Nat.lt_succ_of_lt (hi.layer n y)) fun y => (by rw [y]; exact Nat.lt_succ_self _), hi.net,
    fun n h => (hi.nodes n h).le hl, fun k hk => ?_, fun m h => (hi.nets m h).le hl, hi.ctx⟩, .inr rfl⟩
  · show (if k = w.layerNext then x else w.layers k) = _
    rw [if_neg (by omega)]
  · show LayerIn _ (if k = w.layerNext then x else w.layers k)
    split
    · exact h.le hl
    · next hne => exact (hi.layers k (hk.resolve_right hne)).le hl

theorem Cl.modifyNet {m : Nat} {f : Net T → Net T} (hm : g.net m) (h : ∀ x, NetIn g x → NetIn g (f x)) : Cl b g (Run.modifyNet m f) fun _ _ => True := fun w hi => by
  refine ⟨g, Le.refl g, ⟨le_refl _, le_refl _, le_refl _, le_refl _, fun _ h => .inl h, fun _ h => .inl h, fun _ h => .inl h, fun _ h => .inl h, fun _ _ _ => rfl,
    fun _ _ _ => rfl, fun _ _ _ => rfl, fun k _ hk => ?_⟩, ⟨hi.next, hi.zero, hi.cell, hi.node, hi.layer, hi.net, hi.nodes, hi.layers, fun k hk => ?_, hi.ctx⟩, trivial⟩
  · show (if k = m then f (w.nets k) else w.nets k) = _
    rw [if_neg (by rintro rfl; exact hk hm)]
  · show NetIn g (if k = m then f (w.nets k) else w.nets k)
    split
    · exact h _ (hi.nets k hk)
    · exact hi.nets k hk

theorem Cl.newNet {x : Net T} (h : NetIn g x) : Cl b g (NetM.newNet x) fun g' l => g'.net l := fun w hi => by
  have hl : Le g { g with net := fun n => g.net n ∨ n = w.netNext } := ⟨fun _ h => h, fun _ h => h, fun _ h => h, fun _ h => .inl h⟩
  refine ⟨{ g with net := fun n => g.net n ∨ n = w.netNext }, hl, ⟨le_refl _, le_refl _, le_refl _, Nat.le_succ _, fun _ h => .inl h, fun _ h => .inl h,
    fun _ h => .inl h, fun _ h => h.imp id fun y => (by rw [y]), fun _ _ _ => rfl, fun _ _ _ => rfl, fun _ _ _ => rfl, fun k hk _ => ?_⟩,
    ⟨hi.next, hi.zero, hi.cell, hi.node, hi.layer, fun n hn => hn.elim (fun y => Nat.lt_succ_of_lt (hi.net n y)) fun y => (by rw [y]; exact Nat.lt_succ_self _),
    fun n h => (hi.nodes n h).le hl, fun m h => (hi.layers m h).le hl, fun k hk => ?_, hi.ctx⟩, .inr rfl⟩
  · show (if k = w.netNext then x else w.nets k) = _
    rw [if_neg (by omega)]
  · show NetIn _ (if k = w.netNext then x else w.nets k)
    split
    · exact h.le hl
    · next hne => exact (hi.nets k (hk.resolve_right hne)).le hl

end Side
end Godeep
