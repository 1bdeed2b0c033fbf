import Verif.Props.GraphWrite
import Verif.Spec.Program
/-
  C29 in terms of calls: `FillWith` and `CopyTo`, and evaluation of what they return.
-/
set_option linter.unusedSectionVars false

namespace Godeep.Props
open Godeep Spec GoNum

variable {T : Type} [GoNum T]

/-- evaluation is a graph and its execution -/
theorem eval_graph {n : Nat} {w w2 : World T} (h : Act.evalRun n w = .ok () w2) :
    ∃ ops s' h', w.store.newGraph n = .ok ops s' ∧ exec ops s'.heap = .ok () h' ∧ w2.store.nodes = s'.nodes ∧ w2.store.heap = h' := by
  have e : Act.evalRun n w = (Run.store (Store.build (n + 1) n) { w with store := { w.store with ctx := [] } }).bind fun _ w => Run.heap (exec w.store.ctx) w := rfl
  rw [e] at h
  unfold Run.store at h
  unfold Store.newGraph
  dsimp only at h
  cases hb : Store.build (n + 1) n { w.store with ctx := [] } with
  | ok u s1 =>
    rw [hb] at h
    have h1 : Run.heap (exec s1.ctx) { w with store := s1 } = .ok () w2 := h
    unfold Run.heap at h1
    dsimp only at h1
    cases hx : exec s1.ctx s1.heap with
    | ok u h2 => rw [hx] at h1; cases h1; exact ⟨_, _, _, rfl, hx, rfl, rfl⟩
    | err x h2 => rw [hx] at h1; cases h1
    | panic => rw [hx] at h1; cases h1
  | err x s1 => rw [hb] at h; cases h
  | panic => rw [hb] at h; cases h

variable [Bin T]

theorem eval_call {n : Nat} {r : Ret} {w w2 : World T} (h : (Act.eval n).run w = .ok r w2) : Act.evalRun n w = .ok () w2 := by
  have e : (Act.eval n : Act T).run w = (Act.evalRun n w).bind fun _ w => .ok Ret.nothing w := rfl
  rw [e] at h
  cases h1 : Act.evalRun n w with
  | ok u w1 => rw [h1] at h; cases h; rfl
  | err x w1 => rw [h1] at h; cases h
  | panic => rw [h1] at h; cases h

/-- C29, calls: `FillWith(t, v)` returns a tensor and changes no element; when that tensor is evaluated, every element of `t`, which may be any expression or
data tensor, gets the value of `v`, and no other number that existed before changes. -/
theorem C29_fillWith {w w1 w2 : World T} {t : Nat} {v : Ptr} {r r2 : Ret} (ht : t < w.nodeNext) (hE : Expr w.store t) (hv : Valid w.store.heap v)
    (hpos : 0 < w.store.heap.next) (h1 : (Act.fillWith t v).run w = .ok r w1) :
    ∃ n, r = .tensor n ∧ w1.store.heap = w.store.heap ∧ (((Act.eval n).run w1 = .ok r2 w2) →
      Holds w2.store.heap (w2.store.nodes t).mat ⟨(w2.store.nodes t).mat.shape, fun _ => w.store.heap.val v⟩ ∧ (w2.store.nodes n).mat = (w2.store.nodes t).mat ∧
        ∀ q, q < w.store.heap.next → q ∉ (w2.store.nodes t).mat.ops → w2.store.heap.val q = w.store.heap.val q) := by
  cases h1
  refine ⟨w.nodeNext, rfl, rfl, fun h2 => ?_⟩
  obtain ⟨ops, s', h', hg, he, hn, hh⟩ := eval_graph (eval_call h2)
  have hx : ∀ q, q < w.store.heap.next → s'.heap.val q = w.store.heap.val q := by
    obtain ⟨hb, -⟩ := newGraph_build hg
    obtain ⟨s1, f, B, -, h4, h5⟩ := build_step (s := { (w.store.setNode w.nodeNext (Store.lazyNode (.fill t v) [])) with ctx := [] }) (by simp [Store.setNode, Store.lazyNode])
      (fun c hc => by
        simp only [Store.setNode, if_pos, Store.lazyNode, Kind.kids, List.mem_singleton] at hc
        subst hc
        exact ⟨ht, expr_ctx (expr_mark ht hE).1⟩) hpos hb
    simp only [Store.setNode, if_pos, Store.lazyNode, Fin.run, Fin.fill, Out.ok.injEq, true_and] at h4
    subst h4
    intro q hq
    rw [h5]
    exact B.ext.2 q hq
  have H := C29_fill (w.store.setNode w.nodeNext (Store.lazyNode (.fill t v) [])) s' w.nodeNext t v [] ops (by simp [Store.setNode]) ht (expr_mark ht hE).1 hv hpos hg s'.heap h' (le_refl _) he
  rw [hn, hh]
  rw [hx v hv.2] at H
  exact ⟨H.2.1, H.1, fun q hq hqt => (H.2.2.2 q hq hqt).trans (hx q hq)⟩

/-- C29, calls: `CopyTo(f, t)`, where `t` is a data tensor, `f` any expression or data tensor, and no number is in both or twice in `t`, returns a tensor and changes no element; when that tensor is
evaluated, which fails if the sizes differ, `t` gets the elements that `f` evaluates to, in row-major order, and `f` has them, too.  No other number that existed before changes. -/
theorem C29_copyTo {w w1 w2 : World T} {f t : Nat} {r r2 : Ret} (hf : f < w.nodeNext) (ht : t < w.nodeNext) (hEf : Expr w.store f) (hl : (w.store.nodes t).kind = .leaf)
    (hg : GoodMat w.store.heap (w.store.nodes t).mat) (hnd : (w.store.nodes t).mat.ops.Nodup) (hpos : 0 < w.store.heap.next)
    (h1 : (Act.copyTo f t).run w = .ok r w1) :
    ∃ n, r = .tensor n ∧ w1.store.heap = w.store.heap ∧ (((Act.eval n).run w1 = .ok r2 w2) → (∀ p ∈ (w.store.nodes t).mat.ops, p ∉ (w2.store.nodes f).mat.ops) →
      ∀ x, value w.store w.store.heap.val (f + 1) f = some x →
      size (w.store.nodes t).mat.shape = size x.shape ∧ (w2.store.nodes t).mat = (w.store.nodes t).mat ∧
        Holds w2.store.heap (w.store.nodes t).mat (STensor.ofValues x.flat (w.store.nodes t).mat.shape) ∧ Holds w2.store.heap (w2.store.nodes f).mat x ∧
        ∀ q, q < w.store.heap.next → q ∉ (w.store.nodes t).mat.ops → w2.store.heap.val q = w.store.heap.val q) := by
  cases h1
  refine ⟨w.nodeNext, rfl, rfl, fun h2 hdis x hx => ?_⟩
  obtain ⟨ops, s', h', hgr, he, hn, hh⟩ := eval_graph (eval_call h2)
  have hEt : Expr w.store t := by
    have : ∀ {a m}, (w.store.nodes a).kind = .leaf → Reach w.store a m → m = a := fun ha hr => by
      cases hr with
      | refl => rfl
      | step _ hk _ => rw [ha] at hk; cases hk
    intro m hm
    cases this hl hm
    rw [hl]
    exact ⟨fun c hc => absurd hc List.not_mem_nil, fun _ => hg, trivial, trivial⟩
  set s := w.store.setNode w.nodeNext (Store.lazyNode (.copy f t) []) with hs
  have hb0 : s.nodes w.nodeNext = Store.lazyNode (.copy f t) [] := by simp [hs, Store.setNode]
  have hm0 : (s.nodes t) = w.store.nodes t := by rw [hs]; simp only [Store.setNode]; rw [if_neg (by omega)]
  have hE1 : ∀ c ∈ (s.nodes w.nodeNext).kind.kids, c < w.nodeNext ∧ Expr { s with ctx := [] } c := fun c hc => by
    rw [hb0] at hc
    rcases List.mem_pair.1 hc with rfl | rfl
    · exact ⟨hf, expr_ctx (expr_mark hf hEf).1⟩
    · exact ⟨ht, expr_ctx (expr_mark ht hEt).1⟩
  have hkeep : (∀ q, q < w.store.heap.next → s'.heap.val q = w.store.heap.val q) ∧ w.store.heap.next ≤ s'.heap.next ∧ (s'.nodes t).mat = (w.store.nodes t).mat := by
    obtain ⟨hb, -⟩ := newGraph_build hgr
    obtain ⟨s1, g, B, -, h4, h5⟩ := build_step (s := { s with ctx := [] }) (by rw [hb0]; rfl) hE1 hpos hb
    have h4' : Fin.copy (s1.nodes f).mat (s1.nodes t).mat ⟨s1.heap, s1.ctx, (s.nodes w.nodeNext).mat⟩ = .ok () g := by
      have := h4
      dsimp only at this
      rw [hb0] at this
      rw [hb0]
      exact this
    unfold Fin.copy at h4'
    split at h4'
    · cases h4'
    · cases h4'
      rw [h5]
      refine ⟨fun q hq => B.ext.2 q hq, B.ext.1, ?_⟩
      have e1 := B.leaf t (by simp only [Store.setNode]; rw [if_neg (by omega)]; rw [hm0]; exact hl)
      simp only [Store.setNode] at e1 ⊢
      rw [if_neg (by omega)] at e1 ⊢
      rw [e1, hm0]
  obtain ⟨k1, k2, k3⟩ := hkeep
  have hv : value s s'.heap.val (f + 1) f = some x := by
    rw [← hx, hs, value_mark _ _ hf (expr_ordered hEf)]
    exact value_congr k1 _ _ hEf
  rw [hn] at hdis
  have H := C29_transfer s s' w.nodeNext f t [] ops hb0 hf ht (expr_mark hf hEf).1 (expr_mark ht hEt).1 hpos hgr (by rw [k3]; exact fun p hp => (hg.valid p hp).2) (by rw [k3]; exact hnd)
    (by rw [k3]; exact hdis) s'.heap h' ⟨le_refl _, fun _ _ _ _ => rfl⟩ he x hv
  rw [k3] at H
  rw [hn, hh, k3]
  exact ⟨H.1, rfl, H.2.1, H.2.2.1, fun q hq hqt => (H.2.2.2 q hq hqt).trans (k1 q hq)⟩

/-- the tensors of `Demo.store`: 0 = [3, 4], 1 = [10, 20], 2 = 0 + 1, 3 = 2 * 2 -/
def writeWorld : World (BitVec 16) := { start fun _ _ => 0 with store := Demo.store (BitVec 16), nodeNext := 7 }

/-- C29 is not empty: `CopyTo(3, 1)`, with 3 = (0 + 1) * (0 + 1), puts [169, 576] into 1; `FillWith(1, v)`, where `v` is the first element of 0, [3, 3]. -/
theorem C29_calls_example :
    (3 < writeWorld.nodeNext ∧ Expr writeWorld.store 3 ∧ (writeWorld.store.nodes 1).kind = .leaf ∧ GoodMat writeWorld.store.heap (writeWorld.store.nodes 1).mat ∧
      (writeWorld.store.nodes 1).mat.ops.Nodup ∧ Expr writeWorld.store 1 ∧ Valid writeWorld.store.heap 1) ∧
    (∃ r w1 w2, (Act.copyTo 3 1).run writeWorld = .ok r w1 ∧ (Act.eval 7).run w1 = .ok .nothing w2 ∧ (∀ p ∈ (w2.store.nodes 3).mat.ops, p ≠ 3 ∧ p ≠ 4) ∧
      (w2.store.nodes 1).mat.getData w2.store.heap = .ok [169, 576]) ∧
    ∃ r w1 w2, (Act.fillWith 1 1).run writeWorld = .ok r w1 ∧ (Act.eval 7).run w1 = .ok .nothing w2 ∧ (w2.store.nodes 1).mat.getData w2.store.heap = .ok [3, 3] ∧
      (w2.store.nodes 0).mat.getData w2.store.heap = .ok [3, 4] := by
  refine ⟨⟨by decide, Demo.store_expr 3, rfl, Demo.good_lit rfl rfl rfl, by decide, Demo.store_expr 1, by decide, by decide⟩, ?_, ?_⟩
  · exact ⟨_, _, _, rfl, rfl, by decide +kernel, rfl⟩
  · exact ⟨_, _, _, rfl, rfl, rfl, rfl⟩

end Godeep.Props
