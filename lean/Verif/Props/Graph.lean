import Verif.Lemmas.Graph
import Verif.Props.MatBasic
/-
  C21-C26, C28, C31: graphs built from tensor expressions.

  Vocabulary: `Spec/Expr.lean` (`value`, `shapeOf`, `Reach`, `Expr`), `Spec/Graph.lean`.
-/
set_option linter.unusedSectionVars false

namespace Godeep.Props
open Godeep Spec GoNum

variable {T : Type} [GoNum T]

/-! ### a concrete store -/
namespace Demo

/-- data tensors 0 = [3,4] and 1 = [10,20]; 2 = 0 + 1; 3 = 2 * 2 (tensor 2 used twice);
4 = Sum(3); 5 = Dot(0,1) -/
def store (T : Type) [GoNum T] : Store T where
  nodes
    | 0 => ⟨.leaf, ⟨[2], [1], [1, 2]⟩, false⟩
    | 1 => ⟨.leaf, ⟨[2], [1], [3, 4]⟩, false⟩
    | 2 => Store.lazyNode (.op2 .add 0 1) []
    | 3 => Store.lazyNode (.op2 .mul 2 2) []
    | 4 => Store.lazyNode (.math .sum 3) []
    | 5 => Store.lazyNode (.dot none 0 1) []
    | 6 => Store.lazyNode (.transpose 0) []
    | _ => ⟨.leaf, ⟨[0], [1], []⟩, false⟩
  heap := ⟨fun p => GoNum.ofNat (if p = 1 then 3 else if p = 2 then 4 else if p = 3 then 10 else 20), 5⟩
  ctx := []

/-- it is enough to look at all tensors -/
theorem expr_of_all {s : Store T} (h : ∀ m, (∀ c ∈ (s.nodes m).kind.kids, c < m) ∧
    (frozen s m → GoodMat s.heap (s.nodes m).mat) ∧ ScalarOK s.heap (s.nodes m).kind ∧
    (s.nodes m).kind.isExpr) (n : Nat) : Expr s n := fun m _ => h m

theorem good_lit {h : Heap T} {m : Mat} (h1 : m.mul = indexMul m.shape) (h2 : m.ops.length = size m.shape)
    (h3 : m.ops.all (fun p => decide (0 < p ∧ p < h.next)) = true) : GoodMat h m :=
  ⟨h1, h2, fun p hp => by simpa [Valid] using List.all_eq_true.1 h3 p hp⟩

theorem store_expr (n : Nat) : Expr (store T) n := by
  refine expr_of_all (fun m => ?_) n
  match m with
  | 0 => exact ⟨by simp [store, Kind.kids], fun _ => good_lit rfl rfl rfl, trivial, trivial⟩
  | 1 => exact ⟨by simp [store, Kind.kids], fun _ => good_lit rfl rfl rfl, trivial, trivial⟩
  | 2 => exact ⟨by simp [store, Kind.kids, Store.lazyNode], fun h => by simp [frozen, store, Store.lazyNode] at h, trivial, trivial⟩
  | 3 => exact ⟨by simp [store, Kind.kids, Store.lazyNode], fun h => by simp [frozen, store, Store.lazyNode] at h, trivial, trivial⟩
  | 4 => exact ⟨by simp [store, Kind.kids, Store.lazyNode], fun h => by simp [frozen, store, Store.lazyNode] at h, trivial, trivial⟩
  | 5 => exact ⟨by simp [store, Kind.kids, Store.lazyNode], fun h => by simp [frozen, store, Store.lazyNode] at h, trivial, trivial⟩
  | 6 => exact ⟨by simp [store, Kind.kids, Store.lazyNode], fun h => by simp [frozen, store, Store.lazyNode] at h, trivial, trivial⟩
  | (m + 7) => exact ⟨by simp [store, Kind.kids], fun _ => good_lit rfl rfl rfl, trivial, trivial⟩

/-- building and executing `(0 + 1) * (0 + 1)` -/
example : ∃ ops s' h', (store Int).newGraph 3 = .ok ops s' ∧ exec ops s'.heap = .ok () h' ∧
    (s'.nodes 3).mat.getData h' = .ok [169, 576] := ⟨_, _, _, rfl, rfl, rfl⟩

theorem store_noStraddle (m : Nat) : ¬ ((store T).nodes m).kind.straddles (shp (store T)) := by
  match m with
  | 0 | 1 | 2 | 3 | 4 | 5 | 6 => exact fun h => h
  | (m + 7) => exact fun h => h

theorem store_redOK (m : Nat) : ((store T).nodes m).kind.redOK (shp (store T)) := by
  match m with
  | 0 | 1 | 2 | 3 | 6 => trivial
  | 4 => exact (by decide : size [2] ≠ 0)
  | 5 => exact Or.inl (by decide : [2].getD 0 0 ≠ 0)
  | (m + 7) => trivial

theorem store_wellShaped (n : Nat) (hn : n < 6) : WellShaped (store T) n := by
  have : n = 0 ∨ n = 1 ∨ n = 2 ∨ n = 3 ∨ n = 4 ∨ n = 5 := by omega
  rcases this with rfl | rfl | rfl | rfl | rfl | rfl <;> rfl

end Demo

/-! ### C21 executing a graph computes the expression -/

/-- Take any tensor `n` made by the constructors, with any sharing (`Expr s n`).  Build its graph,
let the program change scalars in any way (`PadKept`), execute.  Then every tensor of the
expression holds its mathematical value on the scalars as they were when execution started. -/
theorem C21_exec_computes_value (s s' : Store T) (n : Nat) (ops : List (Op T)) (hE : Expr s n)
    (hpos : 0 < s.heap.next) (hg : s.newGraph n = .ok ops s') (h h' : Heap T)
    (hk : PadKept s.heap.next s'.heap.next ops s'.heap h) (he : exec ops h = .ok () h')
    (m : Nat) (hm : Reach s n m) (t : STensor T) (hv : value s h.val (m + 1) m = some t) :
    Holds h' (s'.nodes m).mat t :=
  exec_value hE hpos hg hk he hm hv

theorem shaped_of {s : Store T} {n : Nat} (hE : Expr s n) (hw : WellShaped s n)
    (hst : ∀ m, Reach s n m → (s.nodes m).built = false → ¬ (s.nodes m).kind.straddles (shp s)) :
    Shaped s (shp s) n := by
  refine ⟨fun m hm => ?_, hst⟩
  have := shapeOf_reach hm (expr_ordered hE) hw (by omega)
  obtain ⟨sh, hsh⟩ := Option.isSome_iff_exists.1 this
  simp [shp, hsh]

theorem newGraph_total {s : Store T} {n : Nat} (hE : Expr s n) (hpos : 0 < s.heap.next)
    (hs : Shaped s (shp s) n) : ∃ ops s', s.newGraph n = .ok ops s' := by
  obtain ⟨s', hb⟩ := build_total (sh := shp s) (n + 1) n { s with ctx := [] } (by omega) (expr_ctx hE)
    hpos ⟨fun m hm => by rw [shapeOf_ctx]; exact hs.at_ m (reach_ctx.1 hm),
      fun m hm => hs.no m (reach_ctx.1 hm)⟩
  exact ⟨s'.ctx, s', by simp only [Store.newGraph, hb]⟩

/-- For a well-shaped expression, without a padded sub-tensor window across the end of its source
and without reductions over no elements, over a type whose division never aborts: building and
executing succeed, whatever the program does in between, and the result is the value. -/
theorem C21_build_and_exec (hd : ∀ x y : T, divPanics x y = false) (s : Store T) (n : Nat)
    (hE : Expr s n) (hpos : 0 < s.heap.next) (hw : WellShaped s n)
    (hst : ∀ m, Reach s n m → (s.nodes m).built = false → ¬ (s.nodes m).kind.straddles (shp s))
    (hred : ∀ m, Reach s n m → (s.nodes m).built = false → (s.nodes m).kind.redOK (shp s)) :
    ∃ ops s', s.newGraph n = .ok ops s' ∧ ∀ h, PadKept s.heap.next s'.heap.next ops s'.heap h →
      ∃ h', exec ops h = .ok () h' ∧ ∀ m, Reach s n m →
        ∃ t, value s h.val (m + 1) m = some t ∧ t.shape = shp s m ∧ Holds h' (s'.nodes m).mat t := by
  have hsh := shaped_of hE hw hst
  obtain ⟨ops, s', hg⟩ := newGraph_total hE hpos hsh
  refine ⟨ops, s', hg, fun h hk => ?_⟩
  obtain ⟨B, -⟩ := newGraph_ok hE hpos hg
  have bl := newGraph_block hE hpos hg
  have hshape : ∀ m, Reach s n m → (s'.nodes m).mat.shape = shp s m := fun m hm =>
    built_shape B (m + 1) m _ hm (by rw [shapeOf_ctx]; exact hsh.at_ m hm)
  obtain ⟨h', he⟩ := exec_total hd ops h (fun q hq => by have := (bl.dst q hq).1; omega)
    (fun o ho q hq => (bl.reads o ho q hq).1)
    (bl.args fun m hm hb => redOK_get (fun c hc => hshape c (reach_trans hm (.step hb hc (.refl c)))) (hred m hm hb))
  refine ⟨h', he, fun m hm => ?_⟩
  have hvs := value_shape (s := s) (val := h.val) (m + 1) m
    (fun x hx => (hE x (reach_trans hm hx)).2.2.2)
  rw [hsh.at_ m hm] at hvs
  obtain ⟨t, ht, hts⟩ := Option.map_eq_some_iff.1 hvs
  exact ⟨t, ht, hts, exec_value hE hpos hg hk he hm ht⟩

/-- the hypotheses are met, for every element type -/
example (hd : ∀ x y : T, divPanics x y = false) :
    ∃ ops s', (Demo.store T).newGraph 4 = .ok ops s' ∧
      ∃ h', exec ops s'.heap = .ok () h' ∧ ∃ t, Holds h' (s'.nodes 4).mat t ∧ t.shape = [1] := by
  obtain ⟨ops, s', h1, h2⟩ := C21_build_and_exec hd (Demo.store T) 4 (Demo.store_expr 4) (Nat.succ_pos 4) rfl
    (fun m _ _ => Demo.store_noStraddle m) (fun m _ _ => Demo.store_redOK m)
  obtain ⟨h', h3, h4⟩ := h2 s'.heap ⟨le_refl _, fun _ _ _ _ => rfl⟩
  obtain ⟨t, _, h6, h7⟩ := h4 4 (.refl 4)
  exact ⟨ops, s', h1, h', h3, t, h7, h6⟩

/-! ### C22 re-execution -/

/-- any sequence of executions of the graph and of changes to scalars -/
inductive Uses (lo hi : Nat) (ops : List (Op T)) : Heap T → Heap T → Prop where
  | refl (h) : Uses lo hi ops h h
  | edit {h h1 h2} : Uses lo hi ops h h1 → PadKept lo hi ops h1 h2 → Uses lo hi ops h h2
  | exec {h h1 h2} : Uses lo hi ops h h1 → exec ops h1 = .ok () h2 → Uses lo hi ops h h2

theorem uses_kept {lo hi : Nat} {ops : List (Op T)} {h h' : Heap T} (hu : Uses lo hi ops h h') :
    PadKept lo hi ops h h' := by
  induction hu with
  | refl => exact ⟨le_refl _, fun _ _ _ _ => rfl⟩
  | edit _ hk ih => exact ⟨le_trans ih.1 hk.1, fun q h1 h2 h3 => (hk.2 q h1 h2 h3).trans (ih.2 q h1 h2 h3)⟩
  | exec _ he ih =>
    exact ⟨by rw [(exec_frame he).1]; exact ih.1, fun q h1 h2 h3 => (exec_keeps he h3).trans (ih.2 q h1 h2 h3)⟩

/-- After any number of executions and data changes, executing once more gives the expression's
value on the current data. -/
theorem C22_reexec (s s' : Store T) (n : Nat) (ops : List (Op T)) (hE : Expr s n)
    (hpos : 0 < s.heap.next) (hg : s.newGraph n = .ok ops s') (h h' : Heap T)
    (hu : Uses s.heap.next s'.heap.next ops s'.heap h) (he : exec ops h = .ok () h')
    (m : Nat) (hm : Reach s n m) (t : STensor T) (hv : value s h.val (m + 1) m = some t) :
    Holds h' (s'.nodes m).mat t :=
  exec_value hE hpos hg (uses_kept hu) he hm hv

theorem holds_data {h : Heap T} {m : Mat} {t : STensor T} (hh : Holds h m t) : m.getData h = .ok t.flat :=
  C08_getData m t h hh

/-- Executing twice in a row gives every tensor of the expression the same elements as once. -/
theorem C22_exec_twice (s s' : Store T) (n : Nat) (ops : List (Op T)) (hE : Expr s n)
    (hpos : 0 < s.heap.next) (hg : s.newGraph n = .ok ops s') (h h1 h2 : Heap T)
    (hu : Uses s.heap.next s'.heap.next ops s'.heap h) (he1 : exec ops h = .ok () h1)
    (he2 : exec ops h1 = .ok () h2) (m : Nat) (hm : Reach s n m) (hw : WellShaped s n) :
    ∃ data, (s'.nodes m).mat.getData h1 = .ok data ∧ (s'.nodes m).mat.getData h2 = .ok data := by
  have hs := shapeOf_reach hm (expr_ordered hE) hw (by omega)
  have hvs := value_shape (s := s) (val := h.val) (m + 1) m
    (fun x hx => (hE x (reach_trans hm hx)).2.2.2)
  obtain ⟨sh, hsh⟩ := Option.isSome_iff_exists.1 hs
  rw [hsh] at hvs
  obtain ⟨t, ht, -⟩ := Option.map_eq_some_iff.1 hvs
  have ht1 : value s h1.val (m + 1) m = some t := by
    rw [← ht]
    refine value_congr (fun q hq => ?_) _ _ (expr_reach hE hm)
    exact exec_keeps he1 fun r hr => by have := newGraph_dst hE hpos hg hr; omega
  exact ⟨t.flat, holds_data (exec_value hE hpos hg (uses_kept hu) he1 hm ht),
    holds_data (exec_value hE hpos hg (uses_kept (.exec hu he1)) he2 hm ht1)⟩

/-- run a graph, change scalar 1 to `v`, run it twice more; the elements of tensor `n` after the last
two runs -/
def Demo.thrice (n : Nat) (v : Int) : Res (Res (List Int) × Res (List Int)) :=
  ((store Int).newGraph n).bind (fun ops s' =>
    match exec ops s'.heap with
    | .ok _ h1 => match exec ops (h1.put 1 v) with
      | .ok _ h2 => match exec ops h2 with
        | .ok _ h3 => .ok ((s'.nodes n).mat.getData h2, (s'.nodes n).mat.getData h3) s'
        | _ => .panic
      | _ => .panic
    | _ => .panic) |>.res

example : Demo.thrice 3 (-3) = .ok (.ok [49, 576], .ok [49, 576]) := by decide +kernel

/-- changing the data is one of the allowed uses -/
example (ops : List (Op Int)) (hi : Nat) (h h1 : Heap Int) (he : exec ops h = .ok () h1) :
    Uses 5 hi ops h (h1.put 1 (-3)) := by
  refine .edit (.exec (.refl _) he) ⟨le_refl _, fun q h1 _ _ => ?_⟩
  have : q ≠ 1 := by omega
  simp [Heap.put, this]

/-! ### C23 other tensors are not disturbed -/

/-- Executing a graph writes only scalars that its own build created: a tensor (of any origin) whose
elements are older, or were created after the build, keeps its elements. -/
theorem C23_exec_frame (s s' : Store T) (n : Nat) (ops : List (Op T)) (hE : Expr s n)
    (hpos : 0 < s.heap.next) (hg : s.newGraph n = .ok ops s') (h h' : Heap T)
    (he : exec ops h = .ok () h') (x : Mat) (t : STensor T) (hx : Holds h x t)
    (hcells : ∀ p ∈ x.ops, p < s.heap.next ∨ s'.heap.next ≤ p) : Holds h' x t := by
  have hp : ∀ p ∈ x.ops, h'.val p = h.val p := fun p hp => exec_keeps he fun r hr => by
    have := newGraph_dst hE hpos hg hr
    have := hcells p hp
    omega
  refine holds_of_flat hx.shape hx.mul (fun p hp => ?_) ?_
  · have := hx.valid p hp
    exact ⟨this.1, by rw [(exec_frame he).1]; exact this.2⟩
  · rw [← holds_flat hx]
    exact List.map_congr_left fun p hp' => hp p hp'

/-- Building changes no scalar, no tensor outside the expression, no tensor already built, and no
data tensor's elements. -/
theorem C23_build_frame (s s' : Store T) (n : Nat) (ops : List (Op T)) (hE : Expr s n)
    (hpos : 0 < s.heap.next) (hg : s.newGraph n = .ok ops s') :
    Extends s.heap s'.heap ∧ (∀ m, ¬ Reach s n m → s'.nodes m = s.nodes m) ∧
      (∀ m, (s.nodes m).built = true → s'.nodes m = s.nodes m) ∧
      (∀ m, (s.nodes m).kind = .leaf → (s'.nodes m).mat = (s.nodes m).mat) := by
  obtain ⟨B, -⟩ := newGraph_ok hE hpos hg
  exact ⟨B.ext, fun m hm => B.keep m (Or.inr hm), fun m hm => B.keep m (Or.inl hm), B.leaf⟩

/-- the data tensors of the demo keep their elements -/
example : ∃ ops s' h', (Demo.store Int).newGraph 4 = .ok ops s' ∧ exec ops s'.heap = .ok () h' ∧
    ((Demo.store Int).nodes 0).mat.getData h' = .ok [3, 4] ∧
    ∀ p ∈ ((Demo.store Int).nodes 0).mat.ops, p < (Demo.store Int).heap.next := by
  refine ⟨_, _, _, rfl, rfl, rfl, ?_⟩
  simp [Demo.store]

/-! ### C24 a tensor is computed in the first graph only -/

/-- Building a tensor already built yields an empty graph and changes nothing. -/
theorem C24_rebuild_is_empty (s : Store T) (n : Nat) (hb : (s.nodes n).built = true) :
    s.newGraph n = .ok [] { s with ctx := [] } := by
  simp [Store.newGraph, Store.build, hb]

/-- After a graph is built, all its tensors are built: each yields an empty graph from then on. -/
theorem C24_built_once (s s' : Store T) (n m : Nat) (ops : List (Op T)) (hE : Expr s n)
    (hpos : 0 < s.heap.next) (hg : s.newGraph n = .ok ops s') (hm : Reach s n m) :
    s'.newGraph m = .ok [] { s' with ctx := [] } :=
  C24_rebuild_is_empty s' m ((newGraph_ok hE hpos hg).1.done m hm).1

/-- A later graph over expressions containing tensor `m` of an earlier graph does not assign `m`'s
elements: executing it leaves them as they are. -/
theorem C24_not_recomputed (s s1 s2 : Store T) (n n2 m : Nat) (ops ops2 : List (Op T)) (hE : Expr s n)
    (hpos : 0 < s.heap.next) (hg : s.newGraph n = .ok ops s1) (hm : Reach s n m) (hE2 : Expr s1 n2)
    (hg2 : s1.newGraph n2 = .ok ops2 s2) (h h' : Heap T) (he : exec ops2 h = .ok () h') :
    ∀ p ∈ (s1.nodes m).mat.ops, h'.val p = h.val p := by
  obtain ⟨B, -⟩ := newGraph_ok hE hpos hg
  intro p hp
  refine exec_keeps he fun r hr => ?_
  have h1 := newGraph_dst hE2 (lt_of_lt_of_le hpos B.ext.next) hg2 hr
  have h2 := ((B.done m hm).2.valid p hp).2
  omega

/-- and so a later graph is computed from the elements tensor `m` happens to have: here the data
changes after the first execution, and the second graph, executed alone, uses the old sum -/
example : ∃ ops s1 h1 ops2 s2 h2, (Demo.store Int).newGraph 2 = .ok ops s1 ∧
    exec ops s1.heap = .ok () h1 ∧ s1.newGraph 3 = .ok ops2 s2 ∧
    exec ops2 (h1.put 1 100) = .ok () h2 ∧ (s2.nodes 3).mat.getData h2 = .ok [169, 576] :=
  ⟨_, _, _, _, _, _, rfl, rfl, rfl, rfl, rfl⟩

/-! ### C25 shape errors when building -/

/-- A well-shaped expression (and no padded sub-tensor window across the end of its source) builds. -/
theorem C25_wellshaped_builds_partial (s : Store T) (n : Nat) (hE : Expr s n) (hpos : 0 < s.heap.next)
    (hw : WellShaped s n)
    (hst : ∀ m, Reach s n m → (s.nodes m).built = false → ¬ (s.nodes m).kind.straddles (shp s)) :
    ∃ ops s', s.newGraph n = .ok ops s' :=
  newGraph_total hE hpos (shaped_of hE hw hst)

/-- if every operation fits the shapes its operands got, the expression is well-shaped -/
theorem shapeOf_of_fits {s s' : Store T} {n : Nat} {R : Nat → Prop} (B : Built R s s')
    (hord : ∀ m, R m → ∀ c ∈ (s.nodes m).kind.kids, c < m)
    (hf : ∀ m, R m → (s.nodes m).built = false → (s.nodes m).kind.fits fun c => (s'.nodes c).mat.shape) :
    ∀ fuel m, m < fuel → R m → shapeOf s fuel m = some (s'.nodes m).mat.shape := by
  intro fuel
  induction fuel with
  | zero => intro m h; omega
  | succ fuel ih =>
    intro m hm hR
    by_cases hfr : frozen s m
    · simp only [shapeOf, if_pos hfr, Option.some.injEq]
      rcases frozen_cases hfr with h | h
      · rw [B.keep m (Or.inl h)]
      · rw [B.leaf m h]
    · have hb := (not_frozen hfr).1
      have hk : ∀ c ∈ (s.nodes m).kind.kids, shapeOf s fuel c = some (s'.nodes c).mat.shape := fun c hc => by
        have := hord m hR c hc
        exact ih c (by omega) (B.closed m hR hb c hc)
      have h1 : ((s.nodes m).kind.kids.all fun c => (shapeOf s fuel c).isSome) = true :=
        List.all_eq_true.2 fun c hc => by rw [hk c hc]; rfl
      have h2 : (s.nodes m).kind.fits fun c => (shapeOf s fuel c).getD [] :=
        (fits_get fun c hc => by rw [hk c hc]; rfl).1 (hf m hR hb)
      simp only [shapeOf]
      rw [if_neg hfr, if_pos ⟨h1, h2⟩, B.shape m hR hb]
      refine congrArg some (outShape_get fun c hc => ?_)
      rw [hk c hc]; rfl

/-- Every build that succeeds passed every check: each operation of the expression fits the shapes
of its operands (for `Concat`, only as far as it is checked). -/
theorem C25_built_passed (s s' : Store T) (n : Nat) (ops : List (Op T)) (hE : Expr s n)
    (hpos : 0 < s.heap.next) (hg : s.newGraph n = .ok ops s') (m : Nat) (hm : Reach s n m)
    (hb : (s.nodes m).built = false) :
    (s'.nodes m).mat.shape = (s.nodes m).kind.outShape (s.nodes m).mat.shape (fun c => (s'.nodes c).mat.shape) ∧
    (s.nodes m).kind.passes (fun c => (s'.nodes c).mat.shape) :=
  ⟨(newGraph_ok hE hpos hg).1.shape m hm hb, (newGraph_ok hE hpos hg).1.passes m hm hb⟩

/-- Without `Concat`: building succeeds exactly when the expression is well-shaped and no padded
window crosses the end of its source. -/
theorem C25_exact_without_concat_partial (s : Store T) (n : Nat) (hE : Expr s n) (hpos : 0 < s.heap.next)
    (hnc : ∀ m, Reach s n m → ∀ d a b, (s.nodes m).kind ≠ .concat d a b) :
    (∃ ops s', s.newGraph n = .ok ops s') ↔ WellShaped s n ∧
      ∀ m, Reach s n m → (s.nodes m).built = false → ¬ (s.nodes m).kind.straddles (shp s) := by
  constructor
  · rintro ⟨ops, s', hg⟩
    obtain ⟨B, -⟩ := newGraph_ok hE hpos hg
    have hp : ∀ m, Reach s n m → (s.nodes m).built = false →
        (s.nodes m).kind.fits (fun c => (s'.nodes c).mat.shape) ∧
        ¬ (s.nodes m).kind.straddles (fun c => (s'.nodes c).mat.shape) := fun m hm hb => by
      have h1 : (s.nodes m).kind.passes (fun c => (s'.nodes c).mat.shape) := B.passes m hm hb
      have h2 := hnc m hm
      revert h1 h2
      cases (s.nodes m).kind <;> first | exact fun h1 _ => h1 | exact fun _ h2 => absurd rfl (h2 _ _ _)
    have key : ∀ m, Reach s n m → shapeOf s (m + 1) m = some (s'.nodes m).mat.shape := fun m hm => by
      have := shapeOf_of_fits (n := n) B (fun m hm => (hE m hm).1) (fun m hm hb => (hp m hm hb).1) (m + 1) m
        (by omega) hm
      rwa [shapeOf_ctx] at this
    refine ⟨by unfold WellShaped; rw [key n (.refl n)]; rfl, fun m hm hb h => (hp m hm hb).2 ?_⟩
    refine (straddles_get fun c hc => ?_).1 h
    simp [shp, key c (reach_trans hm (.step hb hc (.refl c)))]
  · rintro ⟨h1, h2⟩
    exact C25_wellshaped_builds_partial s n hE hpos h1 h2

/-- Building aborts only on a `Dot` or `Concat` naming a dimension its operands do not have. -/
theorem C25_abort_cause (s : Store T) (n : Nat) (hE : Expr s n) (hpos : 0 < s.heap.next)
    (hg : s.newGraph n = .panic) : ∃ (m : Nat) (sh : Nat → List Nat), Reach s n m ∧
      (s.nodes m).built = false ∧ (s.nodes m).kind.badDim sh ∧
      ∀ c ∈ (s.nodes m).kind.kids, WellShaped s c → sh c = shp s c := by
  unfold Store.newGraph at hg
  cases hb : Store.build (n + 1) n { s with ctx := [] } with
  | ok u s1 => rw [hb] at hg; cases hg
  | err e s1 => rw [hb] at hg; cases hg
  | panic =>
    obtain ⟨m, sh, h1, h2, h3, h4⟩ := build_panic (n + 1) n _ (by omega) (expr_ctx (c := []) hE) hpos hb
    refine ⟨m, sh, reach_ctx.1 h1, h2, h3, fun c hc hw => ?_⟩
    obtain ⟨u, hu⟩ := Option.isSome_iff_exists.1 hw
    rw [h4 c hc (c + 1) u (by rw [shapeOf_ctx]; exact hu)]
    simp [shp, hu]

/-- two data tensors of the given shapes (all elements 7) and one operation on them -/
def Demo.two (sa sb : List Nat) (k : Kind Int) : Store Int where
  nodes
    | 0 => ⟨.leaf, ⟨sa, indexMul sa, List.range' 1 (size sa)⟩, false⟩
    | 1 => ⟨.leaf, ⟨sb, indexMul sb, List.range' (1 + size sa) (size sb)⟩, false⟩
    | 2 => Store.lazyNode k []
    | _ => ⟨.leaf, ⟨[0], [1], []⟩, false⟩
  heap := ⟨fun _ => 7, 1 + size sa + size sb⟩
  ctx := []

/-- 0: success, 1: error, 2: abort -/
def Demo.outcome {σ α : Type} : Out σ α → Nat
  | .ok _ _ => 0
  | .err _ _ => 1
  | .panic => 2

theorem Demo.two_expr (sa sb : List Nat) (k : Kind Int) (hk : ∀ c ∈ k.kids, c < 2) (hx : k.isExpr)
    (hs : ScalarOK (Demo.two sa sb k).heap k) (hl : k ≠ .leaf) : Expr (Demo.two sa sb k) 2 := by
  refine Demo.expr_of_all (fun m => ?_) 2
  match m with
  | 0 =>
    refine ⟨by simp [Demo.two, Kind.kids], fun _ => ⟨rfl, by simp [Demo.two], fun p hp => ?_⟩, trivial, trivial⟩
    simp only [Demo.two, List.mem_range'_1, Valid] at hp ⊢
    omega
  | 1 =>
    refine ⟨by simp [Demo.two, Kind.kids], fun _ => ⟨rfl, by simp [Demo.two], fun p hp => ?_⟩, trivial, trivial⟩
    simp only [Demo.two, List.mem_range'_1, Valid] at hp ⊢
    omega
  | 2 =>
    refine ⟨hk, fun h => ?_, hs, hx⟩
    exfalso
    rcases frozen_cases h with h | h
    · cases h
    · exact hl h
  | (m + 3) => exact ⟨by simp [Demo.two, Kind.kids], fun _ => ⟨rfl, rfl, by simp [Demo.two]⟩, trivial, trivial⟩

/-- fitting and non-fitting cases of the exact theorem -/
example : Demo.outcome ((Demo.two [2, 3] [2, 3] (.op2 .add 0 1)).newGraph 2) = 0 := by decide +kernel
example : Demo.outcome ((Demo.two [2, 3] [3, 2] (.op2 .add 0 1)).newGraph 2) = 1 := by decide +kernel
example : Demo.outcome ((Demo.two [2, 3] [3, 2] (.dot none 0 1)).newGraph 2) = 0 := by decide +kernel
example : Expr (Demo.two [2, 3] [3, 2] (.dot none 0 1)) 2 :=
  Demo.two_expr _ _ _ (by simp [Kind.kids]) trivial trivial (by simp)

/-- what is missing for the full property, on concrete data: a padded window across the end of its
source is rejected although it is well-shaped, -/
example : Demo.outcome ((Demo.two [2] [1] (.sub 0 1 3 true 0)).newGraph 2) = 1 ∧
    WellShaped (Demo.two [2] [1] (.sub 0 1 3 true 0)) 2 := by unfold WellShaped; decide +kernel
/-- `Concat` accepts shapes that do not fit, -/
example : Demo.outcome ((Demo.two [2, 1] [1, 2] (.concat 0 0 1)).newGraph 2) = 0 ∧
    ¬ WellShaped (Demo.two [2, 1] [1, 2] (.concat 0 0 1)) 2 := by unfold WellShaped; decide +kernel
/-- and dimensions out of range abort -/
example : Demo.outcome ((Demo.two [2] [2] (.concat 1 0 1)).newGraph 2) = 2 ∧
    Demo.outcome ((Demo.two [2] [2] (.dot (some (0, 1)) 0 1)).newGraph 2) = 2 := by decide +kernel

/-! ### C26 failed builds -/

theorem getData_nil {m : Mat} (hm : 0 ∈ m.ops) (h : Heap T) : m.getData h = .panic := by
  have key : ∀ l : List Nat, (∀ i ∈ l, i < m.ops.length) → (∃ i ∈ l, m.ops[i]? = some 0) →
      Res.mapM (fun i => h.loadAt m.ops i) l = .panic := by
    intro l
    induction l with
    | nil => rintro _ ⟨i, hi, _⟩; simp at hi
    | cons a l ih =>
      rintro hl ⟨i, hi, h0⟩
      have ha := hl a (by simp)
      by_cases hz : m.ops[a] = 0
      · simp [Res.mapM, Heap.loadAt, Res.index, ha, Heap.load, hz]
      · have := ih (fun i hi => hl i (by simp [hi])) ⟨i, by
          rcases List.mem_cons.1 hi with rfl | hi
          · rw [List.getElem?_eq_getElem ha, Option.some.injEq] at h0; exact absurd h0 hz
          · exact hi, h0⟩
        have h1 : h.loadAt m.ops a = .ok (h.val m.ops[a]) := by
          simp [Heap.loadAt, Res.index, ha, Heap.load, hz]
        simp only [Res.mapM, h1, Res.bind_ok, this, Res.map_panic]
  obtain ⟨i, hi, h0⟩ := List.getElem_of_mem hm
  exact key _ (fun i hi => List.mem_range.1 hi) ⟨i, List.mem_range.2 hi, by rw [List.getElem?_eq_getElem hi, h0]⟩

/-- After a failed build of a tensor made by a constructor, building it again reports success with
no operations; the tensor has no element slots, or reading its data aborts.  No scalar and no tensor
that was built before has changed. -/
theorem C26_failed_build (s s' : Store T) (n : Nat) (e : Err) (k : Kind T) (shape : List Nat)
    (hn : s.nodes n = Store.lazyNode k shape) (hE : Expr s n) (hpos : 0 < s.heap.next)
    (hg : s.newGraph n = .err e s') :
    s'.newGraph n = .ok [] { s' with ctx := [] } ∧
    ((s'.nodes n).mat.ops = [] ∨ ∀ h : Heap T, (s'.nodes n).mat.getData h = .panic) ∧
    Extends s.heap s'.heap ∧ ∀ m, (s.nodes m).built = true → s'.nodes m = s.nodes m := by
  unfold Store.newGraph at hg
  cases hb : Store.build (n + 1) n { s with ctx := [] } with
  | ok u s1 => rw [hb] at hg; cases hg
  | panic => rw [hb] at hg; cases hg
  | err e' s1 =>
    rw [hb] at hg
    simp only [Out.err.injEq] at hg
    obtain ⟨rfl, rfl⟩ := hg
    have F := build_err (n + 1) n _ _ _ (expr_ctx (c := []) hE) hpos hb
    refine ⟨C24_rebuild_is_empty _ _ F.flag, ?_, F.ext, F.built⟩
    rcases F.mat with h | h
    · exact Or.inl (by rw [h]; simp [hn, Store.lazyNode])
    · exact Or.inr fun h0 => getData_nil h h0

/-- the state after a failed build of a sum of differently shaped tensors -/
example : ∃ e s', (Demo.two [2, 3] [3, 2] (.op2 .add 0 1)).newGraph 2 = .err e s' ∧
    (s'.nodes 2).mat.ops = [] ∧ (s'.nodes 2).built = true :=
  ⟨_, _, rfl, rfl, rfl⟩
/-- and of an ill-shaped concatenation, which leaves nil elements -/
example : ∃ e s', (Demo.two [2, 2] [1, 1] (.concat 0 0 1)).newGraph 2 = .err e s' ∧
    (s'.nodes 2).mat.ops = [1, 2, 3, 4, 5, 0] ∧ (s'.nodes 2).built = true :=
  ⟨_, _, rfl, rfl, rfl⟩

/-! ### C28 when execution aborts -/

theorem panic_iff {ops : List (Op T)} {h : Heap T} (hn : ∀ h', exec ops h ≠ .ok () h') :
    exec ops h = .panic := by
  cases hx : exec ops h with
  | ok u h' => exact absurd hx (hn h')
  | err e h' => exact absurd hx (exec_noErr _ _ _ _)
  | panic => rfl

/-- For element types whose division never aborts, executing a graph on any data aborts exactly when
some reduction of the expression ranges over no elements (`Kind.redOK` fails for the shapes the
tensors have). -/
theorem C28_abort_iff (hd : ∀ x y : T, divPanics x y = false) (s s' : Store T) (n : Nat)
    (ops : List (Op T)) (hE : Expr s n) (hpos : 0 < s.heap.next) (hg : s.newGraph n = .ok ops s')
    (h : Heap T) : exec ops h = .panic ↔ ∃ m, Reach s n m ∧ (s.nodes m).built = false ∧
      ¬ (s.nodes m).kind.redOK (fun c => (s'.nodes c).mat.shape) := by
  have bl := newGraph_block hE hpos hg
  constructor
  · intro hp
    by_contra hc
    push Not at hc
    obtain ⟨h', he⟩ := exec_total hd ops h (fun q hq => by have := (bl.dst q hq).1; omega)
      (fun o ho q hq => (bl.reads o ho q hq).1) (bl.args fun m hm hb => hc m hm hb)
    rw [he] at hp; cases hp
  · rintro ⟨m, hm, hb, hr⟩
    obtain ⟨o, ho, hne⟩ := bl.empty fun hall => hr (hall m hm hb)
    exact panic_iff fun h' he => hne (exec_nonempty he o ho)

/-- For every element type: execution never reports an error, and if it aborts then the operations
before some point succeeded, and the operation there reduces nothing or divides in a way that
aborts (an integer by zero). -/
theorem C28_abort_cause (s s' : Store T) (n : Nat) (ops : List (Op T)) (hE : Expr s n)
    (hpos : 0 < s.heap.next) (hg : s.newGraph n = .ok ops s') (h : Heap T) :
    (∀ e h', exec ops h ≠ .err e h') ∧ (exec ops h = .panic →
      ∃ pre o post h1, ops = pre ++ o :: post ∧ exec pre h = .ok () h1 ∧
        (¬ ArgsNonempty o ∨ DivAborts h1 o)) := by
  have bl := newGraph_block hE hpos hg
  exact ⟨fun e h' => exec_noErr _ _ _ _, exec_cause ops h
    (fun q hq => by have := (bl.dst q hq).1; omega) (fun o ho q hq => (bl.reads o ho q hq).1)⟩

/-- build and execute -/
def Demo.run (s : Store Int) (n : Nat) : Nat :=
  match s.newGraph n with
  | .ok ops s' => Demo.outcome (exec ops s'.heap)
  | _ => 3

/-- a sum over no elements aborts; over some elements it does not -/
example : Demo.run (Demo.two [0] [1] (.math .sum 0)) 2 = 2 := by decide +kernel
example : Demo.run (Demo.two [3] [1] (.math .sum 0)) 2 = 0 := by decide +kernel
/-- an integer division by zero -/
example : Demo.run { Demo.two [1] [1] (.op2 .div 0 1) with heap := ⟨fun p => if p = 2 then 0 else 7, 3⟩ } 2 = 2 := by
  decide +kernel

/-! ### C31 views -/

/-- In a built graph the elements of a `Reshape`, `Transpose`, `SubTensor` or `Concat` are, scalar for
scalar, elements of its sources (`Kind.source` says which). -/
theorem C31_views_share (s s' : Store T) (n : Nat) (ops : List (Op T)) (hE : Expr s n)
    (hpos : 0 < s.heap.next) (hg : s.newGraph n = .ok ops s') (m : Nat) (hm : Reach s n m)
    (hb : (s.nodes m).built = false)
    (hfit : (s.nodes m).kind.fits fun c => (s'.nodes c).mat.shape)
    (idx j : List Nat) (c : Nat) (hi : InRange (s'.nodes m).mat.shape idx)
    (hs : (s.nodes m).kind.source (s'.nodes m).mat.shape (fun c => (s'.nodes c).mat.shape) idx = some (c, j)) :
    ∃ p, 0 < p ∧ (s'.nodes m).mat.getOperand idx = .ok p ∧ (s'.nodes c).mat.getOperand j = .ok p := by
  obtain ⟨B, -⟩ := newGraph_ok hE hpos hg
  obtain ⟨h0, c0, f, h1, h2, h3, h4, h5⟩ := B.ran m hm hb
  rw [← h2] at hi hs ⊢
  obtain ⟨hc, hj, p, hp1, hp2⟩ := run_view (get := fun c => (s'.nodes c).mat)
    (s := ⟨h0, c0, (s.nodes m).mat⟩) h5 hfit h1 hi hs
  refine ⟨p, ?_, hp1, hp2⟩
  exact ((h5 c hc).valid p (getOperand_mem hp2)).1

/-- A write to a view element is seen at its source element. -/
theorem C31_write_view (s s' : Store T) (n : Nat) (ops : List (Op T)) (hE : Expr s n)
    (hpos : 0 < s.heap.next) (hg : s.newGraph n = .ok ops s') (m : Nat) (hm : Reach s n m)
    (hb : (s.nodes m).built = false)
    (hfit : (s.nodes m).kind.fits fun c => (s'.nodes c).mat.shape)
    (idx j : List Nat) (c : Nat) (hi : InRange (s'.nodes m).mat.shape idx)
    (hs : (s.nodes m).kind.source (s'.nodes m).mat.shape (fun c => (s'.nodes c).mat.shape) idx = some (c, j))
    (h : Heap T) (v : T) :
    (∃ h', (s'.nodes m).mat.set v idx h = .ok () h' ∧ (s'.nodes c).mat.get j h' = .ok v) ∧
    (∃ h', (s'.nodes c).mat.set v j h = .ok () h' ∧ (s'.nodes m).mat.get idx h' = .ok v) := by
  obtain ⟨p, h0, h1, h2⟩ := C31_views_share s s' n ops hE hpos hg m hm hb hfit idx j c hi hs
  have hp : p ≠ 0 := by omega
  simp [Mat.set, Mat.get, h1, h2, Heap.store, Heap.load, hp, Heap.put]

/-- the transpose of a 2 x 3 tensor: element [2,1] of the view is element [1,2] of the source -/
example : ∃ ops s', (Demo.two [2, 3] [1] (.transpose 0)).newGraph 2 = .ok ops s' ∧
    (s'.nodes 2).mat.shape = [3, 2] ∧ (s'.nodes 2).mat.getOperand [2, 1] = .ok 6 ∧
    (s'.nodes 0).mat.getOperand [1, 2] = .ok 6 := ⟨_, _, rfl, rfl, rfl, rfl⟩
example : (Kind.transpose 0 : Kind Int).source [3, 2] (fun _ => [2, 3]) [2, 1] = some (0, [1, 2]) := rfl

end Godeep.Props
