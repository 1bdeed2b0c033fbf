import Verif.Lemmas.Fail
/-
  Facts about `NewGraph` used by the graph properties.
-/
set_option linter.unusedSectionVars false

namespace Godeep
open Spec GoNum

variable {T : Type} [GoNum T]

/-- the context in use plays no role in what a tensor refers to -/
theorem reach_ctx {s : Store T} {c : List (Op T)} {n m : Nat} : Reach { s with ctx := c } n m ↔ Reach s n m := by
  constructor
  · intro h
    induction h with
    | refl _ => exact .refl _
    | step hb hk _ ih => exact .step hb hk ih
  · intro h
    induction h with
    | refl _ => exact .refl _
    | step hb hk _ ih => exact .step hb hk ih

theorem expr_ctx {s : Store T} {c : List (Op T)} {n : Nat} (h : Expr s n) : Expr { s with ctx := c } n :=
  fun m hm => h m (reach_ctx.1 hm)

theorem frozen_ctx {s : Store T} {c : List (Op T)} {n : Nat} : frozen { s with ctx := c } n ↔ frozen s n := Iff.rfl

theorem value_ctx {s : Store T} {c : List (Op T)} {val : Ptr → T} : ∀ fuel n : Nat,
    value { s with ctx := c } val fuel n = value s val fuel n := by
  intro fuel
  induction fuel with
  | zero => intro n; rfl
  | succ fuel ih => intro n; simp only [value, ih]; rfl

theorem shapeOf_ctx {s : Store T} {c : List (Op T)} : ∀ fuel n : Nat,
    shapeOf { s with ctx := c } fuel n = shapeOf s fuel n := by
  intro fuel
  induction fuel with
  | zero => intro n; rfl
  | succ fuel ih => intro n; simp only [shapeOf, ih]; rfl

theorem newGraph_ok {s s' : Store T} {n : Nat} {ops : List (Op T)} (hE : Expr s n) (hpos : 0 < s.heap.next)
    (h : s.newGraph n = .ok ops s') : Built (Reach s n) { s with ctx := [] } s' ∧ s'.ctx = ops := by
  unfold Store.newGraph at h
  cases hb : Store.build (n + 1) n { s with ctx := [] } with
  | ok u s1 =>
    rw [hb] at h
    simp only [Out.ok.injEq] at h
    obtain ⟨h1, rfl⟩ := h
    exact ⟨built_congr (fun m => reach_ctx) (build_ok _ _ _ _ (expr_ctx hE) hpos hb), h1⟩
  | err e s1 => rw [hb] at h; cases h
  | panic => rw [hb] at h; cases h

/-- the operations of a graph, as a block -/
theorem newGraph_block {s s' : Store T} {n : Nat} {ops : List (Op T)} (hE : Expr s n) (hpos : 0 < s.heap.next)
    (h : s.newGraph n = .ok ops s') : Block s.heap.next s'.heap.next ops
    (fun val => ∀ m, Reach s n m → (s.nodes m).built = false →
      Sem (s.nodes m).kind (fun c => (s'.nodes c).mat) (s'.nodes m).mat val)
    (∀ m, Reach s n m → (s.nodes m).built = false →
      (s.nodes m).kind.redOK fun c => (s'.nodes c).mat.shape) := by
  obtain ⟨B, hc⟩ := newGraph_ok hE hpos h
  obtain ⟨new, h1, h2⟩ := B.ctx
  simp only [List.nil_append] at h1
  rw [← h1, hc] at h2
  exact h2

theorem newGraph_dst {s s' : Store T} {n : Nat} {ops : List (Op T)} (hE : Expr s n) (hpos : 0 < s.heap.next)
    (h : s.newGraph n = .ok ops s') {q : Ptr} {r : Rhs T} (hq : Op.asg q r ∈ ops) :
    s.heap.next ≤ q ∧ q < s'.heap.next :=
  (newGraph_block hE hpos h).dst q (mem_dsts.2 ⟨r, hq⟩)

/-- executing: every tensor of the expression holds its value -/
theorem exec_value {s s' : Store T} {n : Nat} {ops : List (Op T)} (hE : Expr s n) (hpos : 0 < s.heap.next)
    (hg : s.newGraph n = .ok ops s') {h h' : Heap T}
    (hk : PadKept s.heap.next s'.heap.next ops s'.heap h) (he : exec ops h = .ok () h')
    {m : Nat} (hm : Reach s n m) {t : STensor T} (hv : value s h.val (m + 1) m = some t) :
    Holds h' (s'.nodes m).mat t := by
  obtain ⟨B, -⟩ := newGraph_ok hE hpos hg
  have bl := newGraph_block hE hpos hg
  have hold : ∀ q, q < s.heap.next → h'.val q = h.val q := fun q hq =>
    exec_keeps he fun r hr => by have := newGraph_dst hE hpos hg hr; omega
  have hsem := bl.run h h' (fun q h1 h2 h3 => by
    rw [hk.2 q h1 h2 (fun r hr => h3 (mem_dsts.2 ⟨r, hr⟩))]
    exact B.zero q h1 h2) he
  have hv' : value { s with ctx := [] } h'.val (m + 1) m = some t := by
    rw [value_ctx, value_congr hold _ _ (expr_reach hE hm), hv]
  obtain ⟨h1, h2⟩ := built_value B hsem (m + 1) m t hm hv'
  have hgm := (B.done m hm).2
  refine holds_of_flat h1 hgm.mul (fun p hp => ?_) h2
  have hn := (exec_frame he).1
  have := hgm.valid p hp
  exact ⟨this.1, by rw [hn]; exact lt_of_lt_of_le this.2 hk.1⟩

end Godeep
