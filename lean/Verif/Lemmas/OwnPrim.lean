import Verif.Lemmas.OwnInv
/-
  The elementary steps keep the invariant.
-/
set_option linter.unusedSectionVars false

namespace Godeep
open Spec GoNum

variable {T : Type} [GoNum T] {α β : Type}

namespace Own
variable {A : Nat → Prop} {B : Chg} {g g' : G T}

/-- steps that do not touch layers and models -/
theorem Inv.store (hi : Inv g) (hl : Le A B g g') (h1 : g'.w.layers = g.w.layers) (h2 : g'.w.layerNext = g.w.layerNext)
    (h3 : g'.w.nets = g.w.nets) (hf : ∀ q, g'.w.store.heap.next ≤ q → g'.own q = none) (hc : SafeOps g' g'.w.store.ctx)
    (hs : ∀ n, g'.clean n → ∀ q ∈ (g'.w.store.nodes n).mat.ops, Safe g' q) (ht : ∀ n, g'.clean n → n < g'.w.nodeNext)
    (hv : ∀ n, g'.clean n → ∀ k ∈ (g'.w.store.nodes n).kind.views, g'.clean k)
    (hg : ∀ n, ∀ t ∈ target (g'.w.store.nodes n).kind, g'.clean t) (ho : SrcOk g') : Inv g' where
  next := lt_of_lt_of_le hi.next hl.heap
  zero := by rw [hl.own 0 hi.next]; exact hi.zero
  fresh := hf
  ctx := hc
  sound := hs
  lt := ht
  views := hv
  tgt := hg
  input := by rw [h1]; exact fun l n h => hl.clean n (hi.input l n h)
  output := by rw [h1]; exact fun l n h => hl.clean n (hi.output l n h)
  dif := by rw [h1]; exact fun l n h => hl.clean n (hi.dif l n h)
  ref := by rw [h1]; exact fun l => (hi.ref l).le hl
  wts := by rw [h1]; exact fun l n h => (hi.wts l n h).le hl
  neat := by rw [h1]; exact fun l => (hi.neat l).congr fun n h => hl.leaf n (hi.wts l n h).lt (hi.wts l n h).leaf
  unff := by rw [h1]; exact hi.unff
  unused := by rw [h1, h2]; exact hi.unused
  pre := by rw [h1, h2]; exact hi.pre
  cat := by rw [h1, h2]; exact hi.cat
  nin := by rw [h3]; exact fun l n h => hl.clean n (hi.nin l n h)
  nout := by rw [h3]; exact fun l n h => hl.clean n (hi.nout l n h)
  ntgt := by rw [h3]; exact fun l n h => hl.clean n (hi.ntgt l n h)
  nal := by rw [h3]; exact fun l => (hi.nal l).le hl
  nmo := by rw [h3]; exact fun l => (hi.nmo l).le hl
  nff := by rw [h3]; exact fun m l h => (hi.nff m l h).le hl
  nbp := by rw [h3]; exact fun m l h => (hi.nbp m l h).le hl
  ncd := by rw [h3]; exact fun m l h => (hi.ncd m l h).le hl
  nrf := by rw [h3]; exact fun m l h => (hi.nrf m l h).le hl
  nrs := by rw [h3]; exact fun m l h => (hi.nrs m l h).le hl
  nfirst := by rw [h3, h2]; exact hi.nfirst
  nlast := by rw [h3, h2]; exact hi.nlast
  src := ho
  drawn := by rw [h1]; exact fun l n h => (hi.drawn l n h).le (hi.wts l n h) hl

/-- the same state with other scalars and another context -/
def G.put (g : G T) (h : Heap T) (c : List (Op T)) : G T := ⟨g.own, g.clean, g.src, { g.w with store := { g.w.store with heap := h, ctx := c } }⟩

theorem le_put (hi : Inv g) {h : Heap T} (c : List (Op T)) (hn : g.w.store.heap.next ≤ h.next)
    (hv : ∀ q l, g.own q = some l → ¬ A l → h.val q = g.w.store.heap.val q) : Le A B g (g.put h c) :=
  ⟨hn, fun _ _ => rfl, fun _ h => h, hv, le_refl _, fun _ _ => rfl, fun _ _ _ => rfl, le_refl _, fun _ h => h, fun _ _ _ => ⟨rfl, rfl⟩, fun _ => ⟨fun _ => ⟨rfl, rfl⟩, fun _ => rfl⟩, fun _ _ => rfl, le_refl _, rfl, fun q _ s h1 h2 _ _ => hi.src.new q s h1 h2, fun _ _ _ h => h, le_refl _, fun _ _ => rfl, fun _ _ => rfl⟩

theorem inv_put (hi : Inv g) {h : Heap T} {c : List (Op T)} (hl : Le A B g (g.put h c)) (hc : SafeOps (g.put h c) c) : Inv (g.put h c) :=
  hi.store hl rfl rfl rfl (fun q hq => hi.fresh q (le_trans hl.heap hq)) hc (fun n hn q hq => (hi.sound n hn q hq).le hl) hi.lt hi.views hi.tgt (hi.src.le hl rfl)

theorem own_lt (hi : Inv g) {q l : Nat} (h : g.own q = some l) : q < g.w.store.heap.next := by
  by_contra hc
  rw [hi.fresh q (not_lt.1 hc)] at h
  cases h

theorem put_self (w : World T) : { w with store := { w.store with heap := w.store.heap, ctx := w.store.ctx } } = w := rfl

theorem At.push {p : Nat} {r : Rhs T} (hp : Safe g p) : At A B g (Run.push (.asg p r)) fun _ _ => True := by
  intro hi
  have hl : Le A B g (g.put g.w.store.heap (g.w.store.ctx ++ [.asg p r])) := le_put hi _ (le_refl _) fun _ _ _ _ => rfl
  refine ⟨g.put g.w.store.heap (g.w.store.ctx ++ [.asg p r]), rfl, inv_put hi hl fun o ho q hq => ?_, hl, trivial⟩
  rcases List.mem_append.1 ho with ho | ho
  · exact (hi.ctx o ho q hq).le hl
  · rw [List.mem_singleton.1 ho] at hq
    cases hq
    exact hp.le hl

theorem At.newCtx : At A B g (Run.newCtx : Run T Unit) fun _ _ => True := by
  intro hi
  have hl : Le A B g (g.put g.w.store.heap []) := le_put hi _ (le_refl _) fun _ _ _ _ => rfl
  exact ⟨g.put g.w.store.heap [], rfl, inv_put hi hl fun o ho => absurd ho List.not_mem_nil, hl, trivial⟩

/-- work on the scalars that keeps the cells in weights and biases -/
theorem At.heap {f : Heap T → Out (Heap T) α} {Q : G T → α → Prop} (hf : Inv g → match f g.w.store.heap with
      | .ok x h => g.w.store.heap.next ≤ h.next ∧ (∀ q l, g.own q = some l → ¬ A l → h.val q = g.w.store.heap.val q) ∧ Q (g.put h g.w.store.ctx) x
      | .err _ h => g.w.store.heap.next ≤ h.next ∧ ∀ q l, g.own q = some l → ¬ A l → h.val q = g.w.store.heap.val q
      | .panic => True) : At A B g (Run.heap f) Q := by
  intro hi
  have H := hf hi
  unfold Run.heap
  cases e : f g.w.store.heap with
  | ok x h =>
    rw [e] at H
    have hl : Le A B g (g.put h g.w.store.ctx) := le_put hi _ H.1 H.2.1
    exact ⟨g.put h g.w.store.ctx, rfl, inv_put hi hl fun o ho q hq => (hi.ctx o ho q hq).le hl, hl, H.2.2⟩
  | err x h =>
    rw [e] at H
    have hl : Le A B g (g.put h g.w.store.ctx) := le_put hi _ H.1 H.2
    exact ⟨g.put h g.w.store.ctx, rfl, inv_put hi hl fun o ho q hq => (hi.ctx o ho q hq).le hl, hl⟩
  | panic => trivial

theorem At.scalar (v : T) : At A B g (Run.scalar v) fun g' p => Safe g' p :=
  At.heap fun hi => by
    refine ⟨Nat.le_succ _, fun q l hq _ => ?_, ?_⟩
    · have := own_lt hi hq
      simp only [Heap.alloc]
      rw [if_neg (by omega)]
    · exact ⟨Nat.lt_succ_self _, hi.fresh _ (le_refl _)⟩

theorem At.emit (r : Rhs T) : At A B g (Run.emit r) fun g' p => Safe g' p :=
  At.bind (At.scalar _) fun g1 p _ h1 => At.bind (At.push h1) fun g2 _ l2 _ => At.pure p fun _ => h1.le l2

theorem At.setValue {p : Nat} (hp : Safe g p) (v : T) : At A B g (Run.setValue p v) fun _ _ => True :=
  At.heap fun hi => by
    unfold Heap.store
    split
    · next h => split at h <;> cases h; exact ⟨le_refl _, fun q l hq _ => by
        simp only [Heap.put]
        rw [if_neg (by rintro rfl; rw [hp.2] at hq; cases hq)], trivial⟩
    · next h => split at h <;> cases h
    · trivial

/-- writing into cells, each of which is safe or of a layer in `A` -/
def MayWrite (A : Nat → Prop) (g : G T) (q : Nat) : Prop := ∀ l, g.own q = some l → A l

theorem exec_val {l : List (Op T)} (hl : ∀ o ∈ l, ∀ q, dst o = some q → MayWrite A g q) (h : Heap T) :
    EndsIn (fun h' => h'.next = h.next ∧ ∀ q k, g.own q = some k → ¬ A k → h'.val q = h.val q) (exec l h) := by
  induction l generalizing h with
  | nil => exact ⟨rfl, fun _ _ _ _ => rfl⟩
  | cons o l ih =>
    unfold exec
    have ho : EndsIn (fun h' => h'.next = h.next ∧ ∀ q k, g.own q = some k → ¬ A k → h'.val q = h.val q) (o.cal h) := by
      cases o with
      | nop _ => exact ⟨rfl, fun _ _ _ _ => rfl⟩
      | asg p r =>
        show EndsIn _ (match r.eval h with
          | .ok v => h.store p v
          | .err e => .err e h
          | .panic => .panic)
        cases r.eval h with
        | ok v =>
          show EndsIn _ (h.store p v)
          unfold Heap.store
          split
          · trivial
          · refine ⟨rfl, fun q k hq hA => ?_⟩
            simp only [Heap.put]
            rw [if_neg]
            rintro rfl
            exact hA (hl _ List.mem_cons_self _ rfl k hq)
        | err _ => exact ⟨rfl, fun _ _ _ _ => rfl⟩
        | panic => trivial
    refine EndsIn.bind ho (fun _ h => h) fun _ h1 x1 => ?_
    exact (ih (fun o ho => hl o (List.mem_cons_of_mem _ ho)) h1).mono fun h2 x2 =>
      ⟨by rw [x2.1, x1.1], fun q k hq hA => by rw [x2.2 q k hq hA, x1.2 q k hq hA]⟩

theorem at_ends {f : Heap T → Out (Heap T) Unit} (hf : Inv g → EndsIn (fun h' => h'.next = g.w.store.heap.next ∧
      ∀ q k, g.own q = some k → ¬ A k → h'.val q = g.w.store.heap.val q) (f g.w.store.heap)) : At A B g (Run.heap f) fun _ _ => True :=
  At.heap fun hi => by
    have H := hf hi
    cases e : f g.w.store.heap with
    | ok _ h => rw [e] at H; exact ⟨le_of_eq H.1.symm, H.2, trivial⟩
    | err _ h => rw [e] at H; exact ⟨le_of_eq H.1.symm, H.2⟩
    | panic => trivial

theorem safe_write {q : Nat} (h : Safe g q) : MayWrite A g q := fun l hl => by rw [h.2] at hl; cases hl

theorem At.run {o : Option (List (Op T))} (h : ∀ l, o = some l → SafeOps g l) : At A B g (NetM.run o) fun _ _ => True := by
  unfold NetM.run
  refine At.bind (Q := fun g' l => SafeOps g' l) (At.deref o fun l hl _ => h l hl) fun g1 l _ h1 => ?_
  exact at_ends fun _ => exec_val (fun o ho q hq => safe_write (h1 o ho q hq)) _

theorem storeEach_val {ι : Type} {f : ι → Heap T → Res (Nat × T)} {l : List ι}
    (hf : ∀ i h p v, f i h = .ok (p, v) → MayWrite A g p) (h : Heap T) :
    EndsIn (fun h' => h'.next = h.next ∧ ∀ q k, g.own q = some k → ¬ A k → h'.val q = h.val q) (Heap.storeEach f l h) := by
  induction l generalizing h with
  | nil => exact ⟨rfl, fun _ _ _ _ => rfl⟩
  | cons i l ih =>
    unfold Heap.storeEach
    cases e : f i h with
    | ok pv =>
      dsimp only
      have ho : EndsIn (fun h' => h'.next = h.next ∧ ∀ q k, g.own q = some k → ¬ A k → h'.val q = h.val q) (h.store pv.1 pv.2) := by
        unfold Heap.store
        split
        · trivial
        · refine ⟨rfl, fun q k hq hA => ?_⟩
          simp only [Heap.put]
          rw [if_neg]
          rintro rfl
          exact hA (hf i h _ _ e k hq)
      exact EndsIn.bind ho (fun _ h => h) fun _ h1 x1 => (ih h1).mono fun h2 x2 =>
        ⟨by rw [x2.1, x1.1], fun q k hq hA => by rw [x2.2 q k hq hA, x1.2 q k hq hA]⟩
    | err _ => exact ⟨rfl, fun _ _ _ _ => rfl⟩
    | panic => trivial

/-- `LoadFromTensor` -/
theorem At.loadFrom {p t : Nat} (h : Inv g → ∀ q ∈ (g.w.store.nodes p).mat.ops, MayWrite A g q) : At A B g (LayerM.loadFrom p t) fun _ _ => True := by
  intro hi
  have h' := h hi
  revert hi
  show At A B g (Run.heap _) fun _ _ => True
  refine at_ends fun hi => ?_
  unfold Mat.loadFromTensor
  split
  · exact ⟨rfl, fun _ _ _ _ => rfl⟩
  · refine storeEach_val (fun i h p' v e => ?_) _
    obtain ⟨x, hx, e⟩ := res_bind_ok e
    cases e2 : h.loadAt (g.w.store.nodes t).mat.ops i with
    | ok y =>
      rw [e2] at e
      simp only [Res.map_ok, Res.ok.injEq, Prod.mk.injEq] at e
      rw [← e.1]
      exact h' x (index_mem hx)
    | err _ => rw [e2] at e; cases e
    | panic => rw [e2] at e; cases e

theorem At.ignoreErr {a : Run T Unit} (h : At A B g a fun _ _ => True) : At A B g (LayerM.ignoreErr a) fun _ _ => True := by
  intro hi
  have H := h hi
  unfold LayerM.ignoreErr
  cases e : a g.w with
  | ok x w' => rw [e] at H; exact H
  | err e1 w' => rw [e] at H; obtain ⟨g1, h1, h2, h3⟩ := H; exact ⟨g1, h1, h2, h3, trivial⟩
  | panic => trivial

/-! ### tensors -/

/-- the state with a new tensor -/
def G.node (g : G T) (x : Node T) (c : Prop) : G T :=
  ⟨g.own, fun n => g.clean n ∨ (n = g.w.nodeNext ∧ c), g.src, { g.w with store := g.w.store.setNode g.w.nodeNext x, nodeNext := g.w.nodeNext + 1 }⟩

theorem node_ne (g : G T) (x : Node T) (c : Prop) {n : Nat} (h : n < g.w.nodeNext) : (g.node x c).w.store.nodes n = g.w.store.nodes n := by
  show (if n = g.w.nodeNext then x else g.w.store.nodes n) = _
  rw [if_neg (by omega)]

theorem node_eq (g : G T) (x : Node T) (c : Prop) : (g.node x c).w.store.nodes g.w.nodeNext = x := by
  show (if g.w.nodeNext = g.w.nodeNext then x else _) = _
  rw [if_pos rfl]

/-- a new tensor; `c` says that it has no elements in weights -/
theorem At.newNode' (x : Node T) (c : Prop) (ht : ∀ t ∈ target x.kind, g.clean t) (hv : c → ∀ k ∈ x.kind.views, g.clean k)
    (hs : c → ∀ q ∈ x.mat.ops, Safe g q) :
    At A B g (Run.newNode x) fun g' n => (c → g'.clean n) ∧ n < g'.w.nodeNext ∧ g'.w.store.nodes n = x ∧ g'.own = g.own ∧
      g'.w.store.heap = g.w.store.heap ∧ g'.src = g.src ∧ g'.w.draws = g.w.draws := by
  intro hi
  have hl : Le A B g (g.node x c) := by
    refine ⟨le_refl _, fun _ _ => rfl, fun _ h => .inl h, fun _ _ _ _ => rfl, Nat.le_succ _, fun n hn => by rw [node_ne g x c hn],
      fun n hn _ => by rw [node_ne g x c hn], le_refl _, fun _ h => h, fun _ _ _ => ⟨rfl, rfl⟩, fun _ => ⟨fun _ => ⟨rfl, rfl⟩, fun _ => rfl⟩, fun _ _ => rfl, le_refl _, rfl, fun q _ s h1 h2 _ _ => hi.src.new q s h1 h2, fun _ _ _ h => h, le_refl _, fun _ _ => rfl, fun _ _ => rfl⟩
  refine ⟨g.node x c, rfl, hi.store hl rfl rfl rfl hi.fresh (fun o ho q hq => (hi.ctx o ho q hq).le hl) ?_ ?_ ?_ ?_ (hi.src.le hl rfl), hl,
    fun hc => .inr ⟨rfl, hc⟩, Nat.lt_succ_self _, node_eq g x c, rfl, rfl, rfl, rfl⟩
  · rintro n (hn | ⟨rfl, hc⟩) q hq
    · rw [node_ne g x c (hi.lt n hn)] at hq
      exact (hi.sound n hn q hq).le hl
    · rw [node_eq] at hq
      exact (hs hc q hq).le hl
  · rintro n (hn | ⟨rfl, hc⟩)
    · exact Nat.lt_succ_of_lt (hi.lt n hn)
    · exact Nat.lt_succ_self _
  · rintro n (hn | ⟨rfl, hc⟩) k hk
    · rw [node_ne g x c (hi.lt n hn)] at hk
      exact .inl (hi.views n hn k hk)
    · rw [node_eq] at hk
      exact .inl (hv hc k hk)
  · intro n t htt
    by_cases hn : n = g.w.nodeNext
    · rw [hn, node_eq] at htt
      exact .inl (ht t htt)
    · have e : (g.node x c).w.store.nodes n = g.w.store.nodes n := by
        show (if n = g.w.nodeNext then x else g.w.store.nodes n) = _
        rw [if_neg hn]
      rw [e] at htt
      exact .inl (hi.tgt n t htt)

/-- the tensors a lazy tensor is a view of are clean -/
def Views (g : G T) (k : Kind T) : Prop := ∀ t ∈ k.views, g.clean t

theorem At.lazy {k : Kind T} (ht : ∀ t ∈ target k, g.clean t) : At A B g (Run.lazy k) fun g' n => Views g k → g'.clean n :=
  (At.newNode' (Store.lazyNode k []) (Views g k) ht (fun h => h) fun _ q hq => absurd hq List.not_mem_nil).mono fun g' n _ h => h.1

theorem At.reshape (t : Nat) (sh : List Nat) : At A B g (Run.reshape t sh : Run T Nat) fun g' n => g.clean t → g'.clean n :=
  (At.newNode' (Store.lazyNode (.reshape t) sh) (g.clean t) (fun t ht => by cases ht)
    (fun h k hk => by rw [List.mem_singleton.1 hk]; exact h) fun _ q hq => absurd hq List.not_mem_nil).mono fun g' n _ h => h.1

theorem At.flatten (t : Nat) : At A B g (Run.flatten t : Run T Nat) fun g' n => g.clean t → g'.clean n :=
  At.bind (At.mat t) fun g1 m l1 _ => (At.reshape t _).mono fun g2 n _ h hc => h (l1.clean t hc)

/-- elements are new cells -/
def Allocs (f : Heap T → Out (Heap T) Mat) : Prop := ∀ h, match f h with
  | .ok m h' => Extends h h' ∧ ∀ q ∈ m.ops, h.next ≤ q ∧ q < h'.next
  | .err _ h' => Extends h h'
  | .panic => True

theorem allocEach_allocs {ι : Type} {f : ι → Heap T → Res T} (l : List ι) (h : Heap T) : match Heap.allocEach f l h with
    | .ok ops h' => Extends h h' ∧ ∀ q ∈ ops, h.next ≤ q ∧ q < h'.next
    | .err _ h' => Extends h h'
    | .panic => True := by
  induction l generalizing h with
  | nil => exact ⟨ext_refl _, fun q hq => absurd hq List.not_mem_nil⟩
  | cons i l ih =>
    unfold Heap.allocEach
    cases f i h with
    | ok v =>
      have H := ih (h.alloc v).2
      have x := ext_alloc h v
      dsimp only
      cases e : Heap.allocEach f l (h.alloc v).2 with
      | ok ops h' =>
        rw [e] at H
        refine ⟨ext_trans x H.1, fun q hq => ?_⟩
        have hn : (h.alloc v).2.next = h.next + 1 := rfl
        have hx := H.1.1
        rcases List.mem_cons.1 hq with hq | hq
        · rw [hq]; exact ⟨le_refl _, by show h.next < h'.next; omega⟩
        · have := H.2 q hq; omega
      | err _ h' => rw [e] at H; exact ext_trans x H
      | panic => trivial
    | err e => exact ext_refl _
    | panic => trivial

theorem allocs_map {ι : Type} {f : ι → Heap T → Res T} {l : List ι} {sh mu : List Nat} {F : Heap T → Out (Heap T) Mat}
    (hF : ∀ h, F h = (Heap.allocEach f l h).map fun ops => ⟨sh, mu, ops⟩) : Allocs F := fun h => by
  have H := allocEach_allocs (f := f) l h
  rw [hF]
  cases e : Heap.allocEach f l h with
  | ok ops h' => rw [e] at H; exact H
  | err _ h' => rw [e] at H; exact H
  | panic => trivial

/-- new cells are in no weights -/
theorem At.leaf {f : Heap T → Out (Heap T) Mat} (hf : Allocs f) : At A B g (Run.leaf f) fun g' n => g'.clean n := by
  refine At.bind (a := Run.heap f) (Q := fun g' m => Inv g' → ∀ q ∈ m.ops, Safe g' q) (At.heap fun hi => ?_) fun g1 m l1 h1 => ?_
  · have H := hf g.w.store.heap
    cases e : f g.w.store.heap with
    | ok m h =>
      rw [e] at H
      refine ⟨H.1.1, fun q l hq _ => H.1.2 q (own_lt hi hq), fun _ q hq => ?_⟩
      have := H.2 q hq
      exact ⟨this.2, hi.fresh q this.1⟩
    | err _ h => rw [e] at H; exact ⟨H.1, fun q l hq _ => H.2 q (own_lt hi hq)⟩
    | panic => trivial
  · intro hi
    exact ((At.newNode' ⟨.leaf, m, false⟩ True (fun t ht => by cases ht) (fun _ t ht => by cases ht) fun _ => h1 hi).mono
      fun g' n _ h => h.1 trivial) hi

theorem At.zeros (sh : List Nat) : At A B g (Run.zeros sh : Run T Nat) fun g' n => g'.clean n := At.leaf (allocs_map fun _ => rfl)

/-- the state with cells given to layer `l` -/
def G.give (g : G T) (h : Heap T) (l : Nat) : G T :=
  ⟨fun q => if g.w.store.heap.next ≤ q ∧ q < h.next then some l else g.own q, g.clean, g.src, { g.w with store := { g.w.store with heap := h } }⟩

/-- new cells for the weights of `l` -/
theorem At.own (l : Nat) {f : Heap T → Out (Heap T) Mat} (hf : Allocs f) : At A B g (Run.leaf f) fun g' n => Owned g' l n := by
  refine At.bind (a := Run.heap f) (Q := fun g' m => ∀ q ∈ m.ops, q < g'.w.store.heap.next ∧ g'.own q = some l) ?_ fun g1 m l1 h1 => ?_
  · intro hi
    have H := hf g.w.store.heap
    unfold Run.heap
    cases e : f g.w.store.heap with
    | ok m h =>
      rw [e] at H
      have hn : g.w.store.heap.next ≤ h.next := H.1.1
      have hl : Le A B g (g.give h l) := by
        refine ⟨hn, fun q hq => ?_, fun _ h => h, fun q k hq _ => H.1.2 q (own_lt hi hq), le_refl _, fun _ _ => rfl, fun _ _ _ => rfl,
          le_refl _, fun _ h => h, fun _ _ _ => ⟨rfl, rfl⟩, fun _ => ⟨fun _ => ⟨rfl, rfl⟩, fun _ => rfl⟩, fun _ _ => rfl, le_refl _, rfl, fun q _ s h1 h2 _ _ => hi.src.new q s h1 h2, fun _ _ _ h => h, le_refl _, fun _ _ => rfl, fun _ _ => rfl⟩
        show (if _ then _ else _) = _
        rw [if_neg (by omega)]
      refine ⟨g.give h l, rfl, hi.store hl rfl rfl rfl (fun q hq => ?_) (fun o ho q hq => (hi.ctx o ho q hq).le hl)
        (fun n hn q hq => (hi.sound n hn q hq).le hl) hi.lt hi.views hi.tgt (hi.src.le hl rfl), hl, fun q hq => ?_⟩
      · have hq' : h.next ≤ q := hq
        show (if _ then _ else _) = _
        rw [if_neg (by omega)]
        exact hi.fresh q (le_trans hn hq')
      · have := H.2 q hq
        refine ⟨this.2, ?_⟩
        show (if _ then _ else _) = _
        rw [if_pos this]
    | err _ h =>
      rw [e] at H
      have hl : Le A B g (g.put h g.w.store.ctx) := le_put hi _ H.1 fun q l hq _ => H.2 q (own_lt hi hq)
      exact ⟨g.put h g.w.store.ctx, rfl, inv_put hi hl fun o ho q hq => (hi.ctx o ho q hq).le hl, hl⟩
    | panic => trivial
  · refine (At.newNode' ⟨.leaf, m, false⟩ False (fun t ht => by cases ht) (fun h => h.elim) fun h => h.elim).mono fun g' n _ h => ?_
    obtain ⟨-, x1, x2, x3, x4, -⟩ := h
    refine ⟨x1, by rw [x2], ?_⟩
    rw [x2, x3, x4]
    exact h1

/-- another number of random tensors made -/
def G.draw (g : G T) : G T := ⟨g.own, g.clean, g.src, { g.w with draws := g.w.draws + 1 }⟩

theorem le_draw (hi : Inv g) : Le A B g g.draw :=
  ⟨le_refl _, fun _ _ => rfl, fun _ h => h, fun _ _ _ _ => rfl, le_refl _, fun _ _ => rfl, fun _ _ _ => rfl, le_refl _, fun _ h => h, fun _ _ _ => ⟨rfl, rfl⟩, fun _ => ⟨fun _ => ⟨rfl, rfl⟩, fun _ => rfl⟩,
    fun _ _ => rfl, Nat.le_succ _, rfl, fun q _ s h1 h2 _ _ => hi.src.new q s h1 h2, fun _ _ _ h => h, le_refl _, fun _ _ => rfl, fun _ _ => rfl⟩

theorem inv_draw (hi : Inv g) : Inv g.draw := by
  have hl : Le (fun _ => False) (⟨fun _ => False, False, False⟩ : Chg) g g.draw := le_draw hi
  exact hi.store hl rfl rfl rfl hi.fresh hi.ctx hi.sound hi.lt hi.views hi.tgt (hi.src.le hl rfl)

theorem allocEach_range {ι : Type} {f : ι → Heap T → Res T} (l : List ι) (h h' : Heap T) (ops : List Nat) (e : Heap.allocEach f l h = .ok ops h') :
    ops = List.range' h.next l.length := by
  induction l generalizing h ops with
  | nil => cases e; rfl
  | cons i l ih =>
    unfold Heap.allocEach at e
    cases e1 : f i h with
    | ok v =>
      rw [e1] at e
      dsimp only at e
      cases e2 : Heap.allocEach f l (h.alloc v).2 with
      | ok o h2 =>
        rw [e2] at e
        cases e
        rw [ih _ _ e2]
        rfl
      | err _ _ => rw [e2] at e; cases e
      | panic => rw [e2] at e; cases e
    | err _ => rw [e1] at e; cases e
    | panic => rw [e1] at e; cases e

theorem allocEach_rand (r : Nat → T) (l : List Nat) (h h' : Heap T) (ops : List Nat) (e : Heap.allocEach (fun i _ => .ok (r i)) l h = .ok ops h') :
    h'.next = h.next + l.length ∧ ∀ j x, l[j]? = some x → h'.val (h.next + j) = r x := by
  induction l generalizing h ops with
  | nil => cases e; exact ⟨rfl, fun j x hx => by simp at hx⟩
  | cons i l ih =>
    unfold Heap.allocEach at e
    dsimp only at e
    have H := allocEach_allocs (f := fun i (_ : Heap T) => .ok (r i)) l (h.alloc (r i)).2
    cases e2 : Heap.allocEach (fun i (_ : Heap T) => .ok (r i)) l (h.alloc (r i)).2 with
    | ok o h2 =>
      rw [e2] at e H
      cases e
      obtain ⟨h1, h3⟩ := ih _ _ e2
      have hn : (h.alloc (r i)).2.next = h.next + 1 := rfl
      rw [hn] at h1 h3
      refine ⟨by rw [h1, List.length_cons]; omega, fun j x hx => ?_⟩
      cases j with
      | zero =>
        cases hx
        rw [Nat.add_zero, H.1.2 h.next (by omega)]
        exact if_pos rfl
      | succ j =>
        have := h3 j x hx
        rw [Nat.add_right_comm] at this
        exact this
    | err _ _ => rw [e2] at e; cases e
    | panic => rw [e2] at e; cases e

/-- the state with the numbers of a draw in cells of layer `l` -/
def G.rand (g : G T) (h : Heap T) (l : Nat) : G T :=
  ⟨fun q => if g.w.store.heap.next ≤ q ∧ q < h.next then some l else g.own q, g.clean,
    fun q => if g.w.store.heap.next ≤ q ∧ q < h.next then some (g.w.draws, q - g.w.store.heap.next) else g.src q,
    { g.w with draws := g.w.draws + 1, store := { g.w.store with heap := h } }⟩

/-- new weights of `l` are the numbers of a draw -/
theorem At.normRand (l : Nat) (sh : List Nat) : At A B g (Run.normRand sh : Run T Nat) fun g' n => Owned g' l n ∧ Drawn g' n := by
  intro hi
  have e0 : Run.normRand sh g.w = Out.bind (Run.heap (Mat.newRand (g.w.rnd g.w.draws) sh) g.draw.w) fun m => Run.newNode ⟨.leaf, m, false⟩ := rfl
  rw [e0]
  unfold Run.heap Mat.newRand
  have H := allocEach_allocs (f := fun i (_ : Heap T) => .ok (g.w.rnd g.w.draws i)) (List.range (dataSize sh)) g.w.store.heap
  have eh : g.draw.w.store.heap = g.w.store.heap := rfl
  rw [eh]
  cases e : Heap.allocEach (fun i (_ : Heap T) => .ok (g.w.rnd g.w.draws i)) (List.range (dataSize sh)) g.w.store.heap with
  | ok ops h =>
    rw [e] at H
    have hr := allocEach_range _ _ _ _ e
    obtain ⟨hn, hv⟩ := allocEach_rand _ _ _ _ _ e
    rw [List.length_range] at hr hn
    have hold : ∀ q, q < g.w.store.heap.next → (g.rand h l).own q = g.own q ∧ (g.rand h l).src q = g.src q := fun q hq =>
      ⟨if_neg (by omega), if_neg (by omega)⟩
    have hnew : ∀ q, g.w.store.heap.next ≤ q → q < h.next → (g.rand h l).own q = some l ∧ (g.rand h l).src q = some (g.w.draws, q - g.w.store.heap.next) := fun q h1 h2 =>
      ⟨if_pos ⟨h1, h2⟩, if_pos ⟨h1, h2⟩⟩
    have hout : ∀ q, h.next ≤ q → (g.rand h l).own q = none ∧ (g.rand h l).src q = none := fun q hq => by
      refine ⟨(if_neg (by omega)).trans (hi.fresh q (by omega)), (if_neg (by omega)).trans ?_⟩
      cases es : g.src q with
      | none => rfl
      | some s => have := (hi.src.lt q s es).1; omega
    have hl : Le A B g (g.rand h l) := by
      refine ⟨H.1.1, fun q hq => (hold q hq).1, fun _ h => h, fun q k hq _ => H.1.2 q (own_lt hi hq), le_refl _, fun _ _ => rfl, fun _ _ _ => rfl,
        le_refl _, fun _ h => h, fun _ _ _ => ⟨rfl, rfl⟩, fun _ => ⟨fun _ => ⟨rfl, rfl⟩, fun _ => rfl⟩, fun q hq => (hold q hq).2, Nat.le_succ _, rfl, fun q k s h1 h2 _ _ => ?_, fun _ _ _ h => h, le_refl _, fun _ _ => rfl, fun _ _ => rfl⟩
      by_cases hq : q < h.next
      · rw [(hnew q h1 hq).2] at h2
        cases h2
        have := hv (q - g.w.store.heap.next) _ (List.getElem?_range (by omega))
        rw [Nat.add_sub_of_le h1] at this
        exact this
      · rw [(hout q (not_lt.1 hq)).2] at h2; cases h2
    have hs : SrcOk (g.rand h l) := by
      have cs : ∀ q s, (g.rand h l).src q = some s → (q < g.w.store.heap.next ∧ g.src q = some s ∧ s.1 < g.w.draws) ∨
          (g.w.store.heap.next ≤ q ∧ q < h.next ∧ s = (g.w.draws, q - g.w.store.heap.next)) := fun q s hq => by
        by_cases h1 : q < g.w.store.heap.next
        · rw [(hold q h1).2] at hq
          exact .inl ⟨h1, hq, (hi.src.lt q s hq).2⟩
        · by_cases h2 : q < h.next
          · rw [(hnew q (not_lt.1 h1) h2).2] at hq
            cases hq
            exact .inr ⟨not_lt.1 h1, h2, rfl⟩
          · rw [(hout q (not_lt.1 h2)).2] at hq; cases hq
      refine ⟨fun q q' s h1 h2 => ?_, fun q s h1 => ?_⟩
      · rcases cs q s h1 with ⟨_, a1, a2⟩ | ⟨a1, _, a3⟩ <;> rcases cs q' s h2 with ⟨_, b1, b2⟩ | ⟨b1, _, b3⟩
        · exact hi.src.inj q q' s a1 b1
        · rw [b3] at a2; exact absurd a2 (lt_irrefl _)
        · rw [a3] at b2; exact absurd b2 (lt_irrefl _)
        · rw [a3] at b3
          have := congrArg Prod.snd b3
          dsimp only at this
          omega
      · show q < h.next ∧ s.1 < g.w.draws + 1
        rcases cs q s h1 with ⟨a1, _, a3⟩ | ⟨_, a2, a3⟩
        · omega
        · rw [a3]; exact ⟨a2, Nat.lt_succ_self _⟩
    have i1 : Inv (g.rand h l) := hi.store hl rfl rfl rfl (fun q hq => (hout q hq).1) (fun o ho q hq => (hi.ctx o ho q hq).le hl)
      (fun n hn q hq => (hi.sound n hn q hq).le hl) hi.lt hi.views hi.tgt hs
    have hm : ∀ i q, ops[i]? = some q → g.w.store.heap.next ≤ q ∧ q < h.next ∧ q - g.w.store.heap.next = i := fun i q hq => by
      rw [hr] at hq
      obtain ⟨hi', hq⟩ := List.getElem?_eq_some_iff.1 hq
      rw [List.length_range'] at hi'
      rw [List.getElem_range'] at hq
      omega
    have N := (At.newNode' (A := A) (B := B) (g := g.rand h l) ⟨.leaf, ⟨sh, indexMul sh, ops⟩, false⟩ False (fun t ht => by cases ht) (fun h => h.elim) fun h => h.elim).mono
      (R := fun g' n => Owned g' l n ∧ Drawn g' n) (fun g' n _ hN => by
        obtain ⟨-, x1, x2, x3, x4, x5, x6⟩ := hN
        refine ⟨⟨x1, by rw [x2], ?_⟩, g.w.draws, by rw [x6]; exact Nat.lt_succ_self _, ?_⟩
        · rw [x2, x3, x4]
          intro q hq
          obtain ⟨i, hq⟩ := List.mem_iff_getElem?.1 hq
          obtain ⟨a, b, _⟩ := hm i q hq
          exact ⟨b, (hnew q a b).1⟩
        · rw [x2, x5]
          intro i q hq
          obtain ⟨a, b, c⟩ := hm i q hq
          rw [(hnew q a b).2, c]) i1
    obtain ⟨g2, y1, y2, y3, y4⟩ := N
    exact ⟨g2, y1, y2, hl.trans hi y3, y4⟩
  | err x h =>
    rw [e] at H
    have hl : Le A B g (g.draw.put h g.w.store.ctx) := (le_draw hi).trans hi (le_put (inv_draw hi) _ H.1 fun q l hq _ => H.2 q (own_lt hi hq))
    have hl' : Le A B g.draw (g.draw.put h g.w.store.ctx) := le_put (inv_draw hi) _ H.1 fun q l hq _ => H.2 q (own_lt hi hq)
    exact ⟨g.draw.put h g.w.store.ctx, rfl, inv_put (inv_draw hi) hl' fun o ho q hq => (hi.ctx o ho q hq).le hl, hl⟩
  | panic => trivial

/-- the tensor that a call of `NewNormRand` makes -/
theorem normRand_new {sh : List Nat} {w w' : World T} {n : Nat} (e : Run.normRand sh w = .ok n w') :
    Solid (w'.store.nodes n).mat ∧ (w'.store.nodes n).mat.shape = sh ∧ (∀ q ∈ (w'.store.nodes n).mat.ops, w.store.heap.next ≤ q) ∧ w'.layers = w.layers := by
  have e0 : Run.normRand sh w = match Heap.allocEach (fun i _ => .ok (w.rnd w.draws i)) (List.range (dataSize sh)) w.store.heap with
      | .ok ops h => .ok w.nodeNext { w with draws := w.draws + 1, store := { w.store with heap := h, nodes := fun k => if k = w.nodeNext then ⟨.leaf, ⟨sh, indexMul sh, ops⟩, false⟩ else w.store.nodes k }, nodeNext := w.nodeNext + 1 }
      | .err e h => .err e { w with draws := w.draws + 1, store := { w.store with heap := h } }
      | .panic => .panic := by
    show Run.leaf (Mat.newRand (w.rnd w.draws) sh) { w with draws := w.draws + 1 } = _
    show Out.bind (Run.heap (Mat.newRand (w.rnd w.draws) sh) { w with draws := w.draws + 1 }) _ = _
    unfold Run.heap Mat.newRand
    dsimp only
    cases Heap.allocEach (fun i _ => .ok (w.rnd w.draws i)) (List.range (dataSize sh)) w.store.heap <;> rfl
  rw [e0] at e
  cases e1 : Heap.allocEach (fun i (_ : Heap T) => .ok (w.rnd w.draws i)) (List.range (dataSize sh)) w.store.heap with
  | ok ops h =>
    rw [e1] at e
    cases e
    have ho := allocEach_range _ _ _ _ e1
    rw [List.length_range] at ho
    have em : (if w.nodeNext = w.nodeNext then (⟨.leaf, ⟨sh, indexMul sh, ops⟩, false⟩ : Node T) else w.store.nodes w.nodeNext) = ⟨.leaf, ⟨sh, indexMul sh, ops⟩, false⟩ := if_pos rfl
    dsimp only
    rw [em]
    refine ⟨⟨rfl, ?_, ?_⟩, rfl, fun q hq => ?_, rfl⟩
    · rw [ho]; exact List.length_range'
    · rw [ho]; exact List.nodup_range'
    · have hq' : q ∈ ops := hq
      rw [ho] at hq'
      have := List.mem_range'_1.1 hq'
      exact this.1
  | err _ _ => rw [e1] at e; cases e
  | panic => rw [e1] at e; cases e

/-- the elements of a tensor are not in the weights and the bias of layer `l` -/
def Newer (g : G T) (l n : Nat) : Prop :=
  ∀ k, (g.w.layers l).weights = some k ∨ (g.w.layers l).bias = some k → ∀ q ∈ (g.w.store.nodes k).mat.ops, q ∉ (g.w.store.nodes n).mat.ops

theorem At.normNew (l : Nat) (sh : List Nat) : At A B g (Run.normRand sh : Run T Nat) fun g' n => (Owned g' l n ∧ Drawn g' n) ∧ Solid (g'.w.store.nodes n).mat ∧ Newer g' l n ∧
    ∀ q ∈ (g'.w.store.nodes n).mat.ops, g.w.store.heap.next ≤ q := by
  intro hi
  have H := At.normRand (A := A) (B := B) (g := g) l sh hi
  cases e : Run.normRand sh g.w with
  | ok n w' =>
    rw [e] at H
    obtain ⟨g1, h1, h2, h3, h4⟩ := H
    obtain ⟨x1, -, x2, x3⟩ := normRand_new e
    refine ⟨g1, h1, h2, h3, h4, by rw [h1]; exact x1, fun k hk q hq hc => ?_, by rw [h1]; exact x2⟩
    rw [h1, x3] at hk
    have ho := hi.wts l k hk
    rw [h3.leaf k ho.lt ho.leaf] at hq
    have := (ho.ops q hq).1
    rw [h1] at hc
    have := x2 q hc
    omega
  | err x w' => rw [e] at H; exact H
  | panic => trivial

theorem At.copyTensor (n : Nat) : At A B g (NetM.copyTensor n : Run T Nat) fun g' n => g'.clean n :=
  At.bind (At.mat n) fun _ _ _ _ => At.leaf (allocs_map fun _ => rfl)

theorem At.matNode {n : Nat} (h : g.clean n) : At A B g (NetM.matNode n : Run T Nat) fun g' k => g'.clean k := by
  intro hi
  exact ((At.newNode' ⟨.leaf, (g.w.store.nodes n).mat, (g.w.store.nodes n).built⟩ True (fun t ht => by cases ht) (fun _ t ht => by cases ht)
    fun _ => hi.sound n h).mono fun g' k _ h => h.1 trivial) hi

/-- the state with one tensor's flag and the context changed -/
def G.flag (g : G T) (n : Nat) (b : Bool) (c : List (Op T)) : G T :=
  ⟨g.own, g.clean, g.src, { g.w with store := { g.w.store.setNode n { g.w.store.nodes n with built := b } with ctx := c } }⟩

theorem flag_same (g : G T) (n : Nat) (b : Bool) (c : List (Op T)) (k : Nat) :
    ((g.flag n b c).w.store.nodes k).kind = (g.w.store.nodes k).kind ∧ ((g.flag n b c).w.store.nodes k).mat = (g.w.store.nodes k).mat := by
  have e : (g.flag n b c).w.store.nodes k = if k = n then { g.w.store.nodes n with built := b } else g.w.store.nodes k := rfl
  rw [e]
  split
  · next h => rw [h]; exact ⟨rfl, rfl⟩
  · exact ⟨rfl, rfl⟩

theorem le_flag (hi : Inv g) (n : Nat) (b : Bool) (c : List (Op T)) : Le A B g (g.flag n b c) :=
  ⟨le_refl _, fun _ _ => rfl, fun _ h => h, fun _ _ _ _ => rfl, le_refl _, fun k _ => (flag_same g n b c k).1, fun k _ _ => (flag_same g n b c k).2,
    le_refl _, fun _ h => h, fun _ _ _ => ⟨rfl, rfl⟩, fun _ => ⟨fun _ => ⟨rfl, rfl⟩, fun _ => rfl⟩, fun _ _ => rfl, le_refl _, rfl, fun q _ s h1 h2 _ _ => hi.src.new q s h1 h2, fun _ _ _ h => h, le_refl _, fun _ _ => rfl, fun _ _ => rfl⟩

theorem inv_flag (hi : Inv g) (n : Nat) (b : Bool) {c : List (Op T)} (hc : SafeOps g c) : Inv (g.flag n b c) := by
  have hl : Le (fun _ => False) (⟨fun _ => False, False, False⟩ : Chg) g (g.flag n b c) := le_flag hi n b c
  refine hi.store hl rfl rfl rfl hi.fresh hc ?_ hi.lt ?_ ?_ (hi.src.le hl rfl)
  · intro k hk q hq
    rw [(flag_same g n b c k).2] at hq
    exact hi.sound k hk q hq
  · intro k hk t ht
    rw [(flag_same g n b c k).1] at ht
    exact hi.views k hk t ht
  · intro k t ht
    rw [(flag_same g n b c k).1] at ht
    exact hi.tgt k t ht

theorem At.setBuild (n : Nat) (b : Bool) : At A B g (NetM.setBuild n b : Run T Unit) fun _ _ => True := fun hi =>
  ⟨g.flag n b g.w.store.ctx, rfl, inv_flag hi n b hi.ctx, le_flag hi n b _, trivial⟩

theorem At.buildMat (n : Nat) : At A B g (NetM.buildMat n : Run T Unit) fun _ _ => True := by
  intro hi
  unfold NetM.buildMat
  dsimp only
  by_cases hb : (g.w.store.nodes n).built = true
  · rw [if_pos hb]
    exact ⟨g, rfl, hi, Le.refl hi, trivial⟩
  · rw [if_neg hb]
    refine ⟨g.flag n true (g.w.store.ctx ++ (g.w.store.nodes n).mat.ops.map Op.nop), rfl, inv_flag hi n true fun o ho q hq => ?_, le_flag hi n true _, trivial⟩
    rcases List.mem_append.1 ho with ho | ho
    · exact hi.ctx o ho q hq
    · obtain ⟨p, _, rfl⟩ := List.mem_map.1 ho
      cases hq

/-! ### BuildGraph -/

/-- the store part of the invariant -/
structure SOk (own : Nat → Option Nat) (clean : Nat → Prop) (s : Store T) : Prop where
  next : 0 < s.heap.next
  zero : own 0 = none
  fresh : ∀ q, s.heap.next ≤ q → own q = none
  ctx : ∀ o ∈ s.ctx, ∀ q, dst o = some q → q < s.heap.next ∧ own q = none
  sound : ∀ n, clean n → ∀ q ∈ (s.nodes n).mat.ops, q < s.heap.next ∧ own q = none
  views : ∀ n, clean n → ∀ k ∈ (s.nodes n).kind.views, clean k
  tgt : ∀ n, ∀ t ∈ target (s.nodes n).kind, clean t

theorem pickLoop_ctx {f : Nat → Heap T → Res (Nat × Heap T)} (l : List Nat) (acc : List Nat) (s : FSt T) :
    EndsIn (fun s' => s'.ctx = s.ctx) (FSt.pickLoop f l acc s) := by
  induction l generalizing acc s with
  | nil => exact rfl
  | cons i l ih =>
    unfold FSt.pickLoop
    cases f i s.heap with
    | ok r => exact ih _ _
    | err e => exact rfl
    | panic => trivial

theorem run_ctx (get : Nat → Mat) (k : Kind T) (s : FSt T) (h1 : k.views ≠ []) (h2 : target k = []) :
    EndsIn (fun s' => s'.ctx = s.ctx) (Fin.run get k s) := by
  cases k with
  | concat d a b =>
    show EndsIn _ (Fin.concat d (get a) (get b) s)
    unfold Fin.concat
    dsimp only
    split
    · exact rfl
    · split
      · exact rfl
      · split
        · exact pickLoop_ctx _ _ _
        · trivial
  | sub d st en g t =>
    show EndsIn _ (Fin.sub d st en g (get t) s)
    unfold Fin.sub
    split
    · exact rfl
    · split
      · exact rfl
      · split
        · exact rfl
        · split
          · exact rfl
          · exact pickLoop_ctx _ _ _
  | reshape t => exact rfl
  | transpose t => exact pickLoop_ctx _ _ _
  | fill t v => cases h2
  | copy f t => cases h2
  | _ => exact absurd rfl h1

theorem target_views (k : Kind T) : target k = [] ∨ target k = k.views := by cases k <;> first | exact .inl rfl | exact .inr rfl

theorem finish_ok {own : Nat → Option Nat} {clean : Nat → Prop} {s : Store T} (h : SOk own clean s) (n : Nat) :
    EndsIn (SOk own clean) (Store.finish n s) := by
  obtain ⟨P, hP⟩ : ∃ P : Nat → Prop, P = fun q => q < s.heap.next ∧ own q = none := ⟨_, rfl⟩
  have P0 : P 0 := by rw [hP]; exact ⟨h.next, h.zero⟩
  -- what holds of the new elements and operations
  have key : EndsIn (fun f : FSt T => Extends s.heap f.heap ∧ (clean n → ∀ q ∈ f.mat.ops, q < f.heap.next ∧ own q = none) ∧
      ∀ o ∈ f.ctx, ∀ q, dst o = some q → q < f.heap.next ∧ own q = none)
      (Fin.run (fun m => (s.nodes m).mat) (s.nodes n).kind ⟨s.heap, s.ctx, (s.nodes n).mat⟩) := by
    have got : ∀ {f : FSt T} {q : Nat}, Extends s.heap f.heap → Got s.heap f.heap P q → q < f.heap.next ∧ own q = none := by
      intro f q e hq
      rcases hq with hq | hq
      · rw [hP] at hq; exact ⟨lt_of_lt_of_le hq.1 e.1, hq.2⟩
      · exact ⟨hq.2, h.fresh q hq.1⟩
    have all : (∀ t ∈ (s.nodes n).kind.views, clean t) → EndsIn (fun f : FSt T => Extends s.heap f.heap ∧
        (clean n → ∀ q ∈ f.mat.ops, q < f.heap.next ∧ own q = none) ∧ ∀ o ∈ f.ctx, ∀ q, dst o = some q → q < f.heap.next ∧ own q = none)
        (Fin.run (fun m => (s.nodes m).mat) (s.nodes n).kind ⟨s.heap, s.ctx, (s.nodes n).mat⟩) := by
      intro hv
      refine (run_good (P := P) (fun m => (s.nodes m).mat) (s.nodes n).kind ⟨s.heap, s.ctx, (s.nodes n).mat⟩ P0
        (fun t ht q hq => by rw [hP]; exact h.sound t (hv t ht) q hq)).mono fun f hf => ⟨hf.ext, fun hc q hq => ?_, fun o ho q hq => ?_⟩
      · rcases hf.mat q hq with hq | hq
        · have := h.sound n hc q hq; exact ⟨lt_of_lt_of_le this.1 hf.ext.1, this.2⟩
        · exact got hf.ext hq
      · rcases hf.ctx o ho with ho | ho
        · have := h.ctx o ho q hq; exact ⟨lt_of_lt_of_le this.1 hf.ext.1, this.2⟩
        · exact got hf.ext (ho q hq)
    by_cases hc : clean n
    · exact all (h.views n hc)
    · rcases target_views (s.nodes n).kind with ht | ht
      · by_cases hv : (s.nodes n).kind.views = []
        · exact all fun t h => by rw [hv] at h; cases h
        · refine (endsIn_and (run_keeps (fun m => (s.nodes m).mat) (s.nodes n).kind ⟨s.heap, s.ctx, (s.nodes n).mat⟩)
            (run_ctx (fun m => (s.nodes m).mat) (s.nodes n).kind ⟨s.heap, s.ctx, (s.nodes n).mat⟩ hv ht)).mono
            fun f hf => ⟨hf.1, fun h => absurd h hc, fun o ho q hq => ?_⟩
          rw [hf.2] at ho
          have := h.ctx o ho q hq
          exact ⟨lt_of_lt_of_le this.1 hf.1.1, this.2⟩
      · exact all fun t hh => by rw [← ht] at hh; exact h.tgt n t hh
  have fin : ∀ f : FSt T, (Extends s.heap f.heap ∧ (clean n → ∀ q ∈ f.mat.ops, q < f.heap.next ∧ own q = none) ∧
      ∀ o ∈ f.ctx, ∀ q, dst o = some q → q < f.heap.next ∧ own q = none) →
      SOk own clean { (s.setNode n { s.nodes n with mat := f.mat }) with heap := f.heap, ctx := f.ctx } := by
    rintro f ⟨f1, f2, f3⟩
    have e : ∀ k, ({ (s.setNode n { s.nodes n with mat := f.mat }) with heap := f.heap, ctx := f.ctx } : Store T).nodes k =
      if k = n then { s.nodes n with mat := f.mat } else s.nodes k := fun _ => rfl
    refine ⟨lt_of_lt_of_le h.next f1.1, h.zero, fun q hq => h.fresh q (le_trans f1.1 hq), f3, fun k hk q hq => ?_, fun k hk t ht => ?_, fun k t ht => ?_⟩
    · rw [e] at hq
      split at hq
      · next hkn => rw [hkn] at hk; exact f2 hk q hq
      · have := h.sound k hk q hq; exact ⟨lt_of_lt_of_le this.1 f1.1, this.2⟩
    · rw [e] at ht
      split at ht
      · next hkn => rw [hkn] at hk; exact h.views n hk t ht
      · exact h.views k hk t ht
    · rw [e] at ht
      split at ht
      · exact h.tgt n t ht
      · exact h.tgt k t ht
  unfold Store.finish
  dsimp only
  cases e : Fin.run (fun m => (s.nodes m).mat) (s.nodes n).kind ⟨s.heap, s.ctx, (s.nodes n).mat⟩ with
  | ok _ f => rw [e] at key; exact fin f key
  | err _ f => rw [e] at key; exact fin f key
  | panic => trivial

theorem build_ok {own : Nat → Option Nat} {clean : Nat → Prop} (fuel n : Nat) {s : Store T} (h : SOk own clean s) :
    EndsIn (SOk own clean) (Store.build fuel n s) := by
  induction fuel generalizing n s with
  | zero => trivial
  | succ fuel ih =>
    unfold Store.build
    split
    · exact h
    · have each : ∀ (l : List Nat) (s0 : Store T), SOk own clean s0 → EndsIn (SOk own clean) (Store.each (fun c s => Store.build fuel c s) l s0) := by
        intro l
        induction l with
        | nil => exact fun s0 h0 => h0
        | cons c l ihl =>
          intro s0 h0
          unfold Store.each
          exact EndsIn.bind (ih c h0) (fun _ h => h) fun _ s1 h1 => ihl s1 h1
      refine EndsIn.bind (each _ _ ?_) (fun _ h => h) fun _ s1 h1 => finish_ok h1 n
      have e : ∀ k, (s.setNode n { s.nodes n with built := true }).nodes k = if k = n then { s.nodes n with built := true } else s.nodes k := fun _ => rfl
      refine ⟨h.next, h.zero, h.fresh, h.ctx, fun k hk q hq => ?_, fun k hk t ht => ?_, fun k t ht => ?_⟩
      · rw [e] at hq
        split at hq
        · next hkn => rw [hkn] at hk; exact h.sound n hk q hq
        · exact h.sound k hk q hq
      · rw [e] at ht
        split at ht
        · next hkn => rw [hkn] at hk; exact h.views n hk t ht
        · exact h.views k hk t ht
      · rw [e] at ht
        split at ht
        · exact h.tgt n t ht
        · exact h.tgt k t ht

theorem At.buildGraph (n : Nat) : At A B g (Run.buildGraph n : Run T Unit) fun _ _ => True := by
  intro hi
  have H := endsIn_and (build_keeps (n + 1) n g.w.store) (build_ok (n + 1) n (own := g.own) (clean := g.clean)
    (s := g.w.store) ⟨hi.next, hi.zero, hi.fresh, hi.ctx, hi.sound, hi.views, hi.tgt⟩)
  have fin : ∀ s, SKept g.w.store s → SOk g.own g.clean s → Inv (⟨g.own, g.clean, g.src, { g.w with store := s }⟩ : G T) ∧
      Le A B g ⟨g.own, g.clean, g.src, { g.w with store := s }⟩ := by
    intro s h1 h2
    have hl : Le A B g ⟨g.own, g.clean, g.src, { g.w with store := s }⟩ :=
      ⟨h1.heap.1, fun _ _ => rfl, fun _ h => h, fun q l hq _ => h1.heap.2 q (own_lt hi hq), le_refl _, fun k _ => h1.kind k,
        fun k _ hk => (h1.frozen k (.inr (by rw [hk]; trivial))).2, le_refl _, fun _ h => h, fun _ _ _ => ⟨rfl, rfl⟩, fun _ => ⟨fun _ => ⟨rfl, rfl⟩, fun _ => rfl⟩, fun _ _ => rfl, le_refl _, rfl, fun q _ s h1 h2 _ _ => hi.src.new q s h1 h2, fun _ _ _ h => h, le_refl _, fun _ _ => rfl, fun _ _ => rfl⟩
    exact ⟨hi.store hl rfl rfl rfl h2.fresh h2.ctx h2.sound hi.lt h2.views h2.tgt (hi.src.le hl rfl), hl⟩
  unfold Run.buildGraph Run.store
  cases e : Store.build (n + 1) n g.w.store with
  | ok _ s => rw [e] at H; obtain ⟨x, y⟩ := fin s H.1 H.2; exact ⟨_, rfl, x, y, trivial⟩
  | err _ s => rw [e] at H; obtain ⟨x, y⟩ := fin s H.1 H.2; exact ⟨_, rfl, x, y⟩
  | panic => trivial

theorem At.transfer (f : Nat) {t : Nat} (h : g.clean t) : At A B g (Run.transfer f t : Run T Unit) fun _ _ => True :=
  At.bind (At.lazy fun k hk => by rw [List.mem_singleton.1 hk]; exact h) fun _ n _ _ => At.buildGraph n

theorem At.fill {t : Nat} (v : Nat) (h : g.clean t) : At A B g (Run.fill t v : Run T Unit) fun _ _ => True :=
  At.bind (At.lazy fun k hk => by rw [List.mem_singleton.1 hk]; exact h) fun _ n _ _ => At.buildGraph n

/-! ### layers and models -/

/-- what a layer object must satisfy when it replaces `x` -/
structure LOk (B : Chg) (g : G T) (l : Nat) (x y : Layer T) : Prop where
  input : ∀ n, y.input = some n → g.clean n
  output : ∀ n, y.output = some n → g.clean n
  dif : ∀ n, y.dif = some n → g.clean n
  ref : Safe g y.ref
  wts : ∀ n, y.weights = some n ∨ y.bias = some n → Owned g l n
  drawn : ∀ n, y.weights = some n ∨ y.bias = some n → Drawn g n
  neat : Neat g.w y
  unff : y.ff = false → y.weights = none ∧ y.bias = none
  unused : g.w.layerNext ≤ l → y.ff = false
  pre : ∀ p, y.pre = some p → p < g.w.layerNext
  cat : ∀ a b d, y.kind = .concat a b d → a < g.w.layerNext ∧ b < g.w.layerNext
  ff : x.ff = true → y.ff = true
  same : ¬ B.1 l → x.ff = true → y.weights = x.weights ∧ y.bias = x.bias

theorem LOk.refl (hi : Inv g) (l : Nat) : LOk B g l (g.w.layers l) (g.w.layers l) :=
  ⟨hi.input l, hi.output l, hi.dif l, hi.ref l, hi.wts l, hi.drawn l, hi.neat l, hi.unff l, hi.unused l, hi.pre l, hi.cat l, fun h => h, fun _ _ => ⟨rfl, rfl⟩⟩

/-- the state with other layers -/
def G.lay (g : G T) (L : Nat → Layer T) (n : Nat) : G T := ⟨g.own, g.clean, g.src, { g.w with layers := L, layerNext := n }⟩

theorem lay_ok (hi : Inv g) {L : Nat → Layer T} {n : Nat} (hn : g.w.layerNext ≤ n)
    (h : ∀ l, LOk B g l (g.w.layers l) (L l) ∨ (LOk B (g.lay L n) l (g.w.layers l) (L l)))
    (htr : ¬ B.2.1 → ∀ l, (L l).trainable = (g.w.layers l).trainable ∧ (L l).pre = (g.w.layers l).pre)
    (hmk : ¬ B.2.2 → ∀ l, l < g.w.layerNext → (g.w.layers l).trainable = false → (L l).trainable = false)
    (hkd : ∀ l, l < g.w.layerNext → (L l).kind = (g.w.layers l).kind) : Inv (g.lay L n) ∧ Le A B g (g.lay L n) := by
  have h' : ∀ l, LOk B (g.lay L n) l (g.w.layers l) (L l) := fun l => by
    rcases h l with k | k
    · exact ⟨k.input, k.output, k.dif, k.ref, fun m hm => ⟨(k.wts m hm).lt, (k.wts m hm).leaf, (k.wts m hm).ops⟩, k.drawn, ⟨k.neat.solid, k.neat.apart⟩, k.unff,
        fun hl => k.unused (le_trans hn hl), fun p hp => lt_of_lt_of_le (k.pre p hp) hn,
        fun a b d hd => ⟨lt_of_lt_of_le (k.cat a b d hd).1 hn, lt_of_lt_of_le (k.cat a b d hd).2 hn⟩, k.ff, k.same⟩
    · exact k
  have hl : Le A B g (g.lay L n) := ⟨le_refl _, fun _ _ => rfl, fun _ h => h, fun _ _ _ _ => rfl, le_refl _, fun _ _ => rfl, fun _ _ _ => rfl, hn,
    fun l => (h' l).ff, fun l => (h' l).same, fun hB => ⟨htr hB, fun _ => rfl⟩, fun _ _ => rfl, le_refl _, rfl, fun q _ s h1 h2 _ _ => hi.src.new q s h1 h2, hmk, le_refl _, hkd, fun _ _ => rfl⟩
  exact ⟨⟨hi.next, hi.zero, hi.fresh, hi.ctx, hi.sound, hi.lt, hi.views, hi.tgt, fun l => (h' l).input, fun l => (h' l).output, fun l => (h' l).dif,
    fun l => (h' l).ref, fun l => (h' l).wts, fun l => (h' l).neat, fun l => (h' l).unff, fun l => (h' l).unused, fun l => (h' l).pre, fun l => (h' l).cat,
    hi.nin, hi.nout, hi.ntgt, hi.nal, hi.nmo, hi.nff, hi.nbp, hi.ncd, hi.nrf, hi.nrs,
    fun m l hm => lt_of_lt_of_le (hi.nfirst m l hm) hn, fun m l hm => lt_of_lt_of_le (hi.nlast m l hm) hn, ⟨hi.src.inj, hi.src.lt⟩, fun l => (h' l).drawn⟩, hl⟩

theorem At.modify {l : Nat} {f : Layer T → Layer T} (h : Inv g → LOk B g l (g.w.layers l) (f (g.w.layers l)))
    (htr : ∀ x, (B.2.1 ∧ (B.2.2 ∨ (x.trainable = false → (f x).trainable = false))) ∨ ((f x).trainable = x.trainable ∧ (f x).pre = x.pre) := by exact fun _ => .inr ⟨rfl, rfl⟩) (hk0 : ∀ x, (f x).kind = x.kind := by exact fun _ => rfl) :
    At A B g (Run.modify l f) fun g' _ => g'.w.layers l = f (g.w.layers l) := by
  intro hi
  obtain ⟨x, y⟩ := lay_ok (A := A) (B := B) hi (L := fun k => if k = l then f (g.w.layers k) else g.w.layers k) (le_refl _) (fun k => .inl (by
    by_cases hk : k = l
    · rw [if_pos hk, hk]; exact h hi
    · rw [if_neg hk]; exact LOk.refl hi k)) (fun hB k => by
      by_cases hk : k = l
      · rw [if_pos hk]
        exact (htr _).elim (fun x => absurd x.1 hB) fun x => x
      · rw [if_neg hk]; exact ⟨rfl, rfl⟩) (fun hB k _ ht => by
      by_cases hk : k = l
      · rw [if_pos hk]
        exact (htr _).elim (fun x => (x.2.resolve_left hB) ht) fun x => x.1.trans ht
      · rw [if_neg hk]; exact ht) (fun k _ => by
      by_cases hk : k = l
      · rw [if_pos hk]; exact hk0 _
      · rw [if_neg hk])
  exact ⟨_, rfl, x, y, if_pos rfl⟩

/-- a new layer object -/
structure NewOk (g : G T) (x : Layer T) : Prop where
  input : ∀ n, x.input = some n → g.clean n
  output : ∀ n, x.output = some n → g.clean n
  dif : ∀ n, x.dif = some n → g.clean n
  ref : x.ref = 0
  weights : x.weights = none
  bias : x.bias = none
  ff : x.ff = false
  pre : x.pre = none
  cat : ∀ a b d, x.kind = .concat a b d → a < g.w.layerNext ∧ b < g.w.layerNext

theorem At.newLayer {x : Layer T} (hB : B.2.1) (h : NewOk g x) : At A B g (Run.newLayer x) fun g' l => l < g'.w.layerNext := by
  intro hi
  obtain ⟨y, z⟩ := lay_ok (A := A) (B := B) hi (L := fun k => if k = g.w.layerNext then x else g.w.layers k) (n := g.w.layerNext + 1) (Nat.le_succ _) (fun k => by
    by_cases hk : k = g.w.layerNext
    · refine .inl ?_
      rw [if_pos hk, hk]
      refine ⟨h.input, h.output, h.dif, ?_, fun n hn => ?_, fun n hn => (by rw [h.weights, h.bias] at hn; rcases hn with hn | hn <;> cases hn), ⟨fun n hn => (by rw [h.weights, h.bias] at hn; rcases hn with hn | hn <;> cases hn), fun n k hn => (by rw [h.weights] at hn; cases hn)⟩, fun _ => ⟨h.weights, h.bias⟩, fun _ => h.ff, fun p hp => ?_, h.cat, fun hf => ?_, fun _ hf => ?_⟩
      · rw [h.ref]; exact ⟨hi.next, hi.zero⟩
      · rw [h.weights, h.bias] at hn; rcases hn with hn | hn <;> cases hn
      · rw [h.pre] at hp; cases hp
      · rw [hi.unused _ (le_refl _)] at hf; cases hf
      · rw [hi.unused _ (le_refl _)] at hf; cases hf
    · rw [if_neg hk]; exact .inl (LOk.refl hi k)) (fun hc => absurd hB hc) (fun _ k hk ht => by rw [if_neg (Nat.ne_of_lt hk)]; exact ht) (fun k hk => by rw [if_neg (Nat.ne_of_lt hk)])
  exact ⟨_, rfl, y, z, Nat.lt_succ_self _⟩

/-- what a model object must satisfy -/
structure NOk (g : G T) (y : Net T) : Prop where
  input : ∀ n, y.input = some n → g.clean n
  output : ∀ n, y.output = some n → g.clean n
  target : ∀ n, y.target = some n → g.clean n
  alpha : Safe g y.alpha
  momentum : Safe g y.momentum
  ff : ∀ l, y.ff = some l → SafeOps g l
  bp : ∀ l, y.bp = some l → SafeOps g l
  calDif : ∀ l, y.calDif = some l → SafeOps g l
  resetFit : ∀ l, y.resetFit = some l → SafeOps g l
  reset : ∀ l, y.reset = some l → SafeOps g l
  first : ∀ l, y.first = some l → l < g.w.layerNext
  last : ∀ l, y.last = some l → l < g.w.layerNext

theorem NOk.refl (hi : Inv g) (m : Nat) : NOk g (g.w.nets m) :=
  ⟨hi.nin m, hi.nout m, hi.ntgt m, hi.nal m, hi.nmo m, hi.nff m, hi.nbp m, hi.ncd m, hi.nrf m, hi.nrs m, hi.nfirst m, hi.nlast m⟩

theorem NOk.le {y : Net T} (h : NOk g y) (hl : Le A B g g') : NOk g' y :=
  ⟨fun n x => hl.clean n (h.input n x), fun n x => hl.clean n (h.output n x), fun n x => hl.clean n (h.target n x), h.alpha.le hl, h.momentum.le hl,
    fun l x => (h.ff l x).le hl, fun l x => (h.bp l x).le hl, fun l x => (h.calDif l x).le hl, fun l x => (h.resetFit l x).le hl, fun l x => (h.reset l x).le hl,
    fun l x => lt_of_lt_of_le (h.first l x) hl.layer, fun l x => lt_of_lt_of_le (h.last l x) hl.layer⟩

/-- the state with other models -/
def G.mod (g : G T) (M : Nat → Net T) (n : Nat) : G T := ⟨g.own, g.clean, g.src, { g.w with nets := M, netNext := n }⟩

theorem mod_ok (hi : Inv g) {M : Nat → Net T} {n : Nat} (hn : g.w.netNext ≤ n) (h : ∀ m, NOk g (M m)) (hs : ¬ B.2.1 → ∀ m, (M m).last = (g.w.nets m).last)
    (hf : ¬ B.2.1 → ∀ m, (M m).first = (g.w.nets m).first) : Inv (g.mod M n) ∧ Le A B g (g.mod M n) :=
  ⟨⟨hi.next, hi.zero, hi.fresh, hi.ctx, hi.sound, hi.lt, hi.views, hi.tgt, hi.input, hi.output, hi.dif, hi.ref,
      fun l n h => ⟨(hi.wts l n h).lt, (hi.wts l n h).leaf, (hi.wts l n h).ops⟩, fun l => ⟨(hi.neat l).solid, (hi.neat l).apart⟩, hi.unff, hi.unused, hi.pre, hi.cat,
      fun m => (h m).input, fun m => (h m).output, fun m => (h m).target, fun m => (h m).alpha, fun m => (h m).momentum, fun m => (h m).ff,
      fun m => (h m).bp, fun m => (h m).calDif, fun m => (h m).resetFit, fun m => (h m).reset, fun m => (h m).first, fun m => (h m).last, ⟨hi.src.inj, hi.src.lt⟩, hi.drawn⟩,
    ⟨le_refl _, fun _ _ => rfl, fun _ h => h, fun _ _ _ _ => rfl, le_refl _, fun _ _ => rfl, fun _ _ _ => rfl, le_refl _, fun _ h => h, fun _ _ _ => ⟨rfl, rfl⟩, fun hB => ⟨fun _ => ⟨rfl, rfl⟩, hs hB⟩, fun _ _ => rfl, le_refl _, rfl, fun q _ s h1 h2 _ _ => hi.src.new q s h1 h2, fun _ _ _ h => h, hn, fun _ _ => rfl, hf⟩⟩

theorem At.modifyNet {m : Nat} {f : Net T → Net T} (h : Inv g → NOk g (f (g.w.nets m)))
    (hs : ∀ x, B.2.1 ∨ (f x).last = x.last := by exact fun _ => .inr rfl) (hf : ∀ x, B.2.1 ∨ (f x).first = x.first := by exact fun _ => .inr rfl) : At A B g (Run.modifyNet m f) fun _ _ => True := by
  intro hi
  obtain ⟨x, y⟩ := mod_ok (A := A) (B := B) hi (M := fun k => if k = m then f (g.w.nets k) else g.w.nets k) (n := g.w.netNext) (le_refl _) (fun k => by
    by_cases hk : k = m
    · rw [if_pos hk, hk]; exact h hi
    · rw [if_neg hk]; exact NOk.refl hi k) (fun hB k => by
      by_cases hk : k = m
      · rw [if_pos hk]; exact (hs _).elim (fun x => absurd x hB) fun x => x
      · rw [if_neg hk]) (fun hB k => by
      by_cases hk : k = m
      · rw [if_pos hk]; exact (hf _).elim (fun x => absurd x hB) fun x => x
      · rw [if_neg hk])
  exact ⟨_, rfl, x, y, trivial⟩

theorem At.newNet {y : Net T} (hB : B.2.1) (h : Inv g → NOk g y) : At A B g (NetM.newNet y) fun g' m => m < g'.w.netNext := by
  intro hi
  obtain ⟨x, z⟩ := mod_ok (A := A) (B := B) hi (M := fun k => if k = g.w.netNext then y else g.w.nets k) (n := g.w.netNext + 1) (Nat.le_succ _) (fun k => by
    by_cases hk : k = g.w.netNext
    · rw [if_pos hk]; exact h hi
    · rw [if_neg hk]; exact NOk.refl hi k) (fun hc => absurd hB hc) (fun hc => absurd hB hc)
  exact ⟨_, rfl, x, z, Nat.lt_succ_self _⟩

end Own
end Godeep
