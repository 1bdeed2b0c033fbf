import Verif.Lemmas.ResetFit
/-
  The operations that compute the output error and the loss.
-/
set_option linter.unusedSectionVars false

namespace Godeep
open Spec GoNum

variable {T : Type} [GoNum T]

/-- `BuildGraph` of a new tensor made from one that is ready, inside another `BuildGraph` -/
theorem build1_store {s : Store T} {d t fuel : Nat} {m : Mat} {k : Kind T} {a : Nat} {o : List (Op T)} {M : Mat}
    (hd : s.nodes d = Store.lazyNode k []) (hk : k.kids = [t]) (ft : frozen s t) (mt : (s.nodes t).mat = m) (htd : t ≠ d)
    (hrun : ∀ get : Nat → Mat, get t = m → ∀ ctx, Fin.run get k ⟨s.heap, ctx, ⟨[], [], []⟩⟩ = .ok () ⟨allocZ a s.heap, ctx ++ o, M⟩) :
    ∃ s2 nops, Store.build (fuel + 2) d s = .ok () s2 ∧ AllNop nops ∧ s2.heap = allocZ a s.heap ∧ s2.ctx = s.ctx ++ (nops ++ o) ∧
      s2.nodes d = ⟨k, M, true⟩ ∧ ∀ x, x ≠ d → (s2.nodes x).kind = (s.nodes x).kind ∧ (s2.nodes x).mat = (s.nodes x).mat ∧
        ((s.nodes x).built = true → (s2.nodes x).built = true) := by
  set s0 : Store T := s.setNode d { s.nodes d with built := true } with hs0
  have f0 : ∀ x, x ≠ d → s0.nodes x = s.nodes x := fun x hx => by
    simp only [hs0, Store.setNode]; rw [if_neg hx]
  have ft0 : frozen s0 t := by unfold frozen at ft ⊢; rwa [f0 t htd]
  obtain ⟨s1, nop1, b1, a1, c1, e1, m1⟩ := build_frozen (fuel := fuel) ft0
  have bn : (s.nodes d).built = false := by rw [hd]; rfl
  have kn : (s.nodes d).kind = k := by rw [hd]; rfl
  have hd0 : s0.nodes d = ⟨k, ⟨[], [], []⟩, true⟩ := by
    simp only [hs0, Store.setNode, if_pos, hd]; rfl
  have kn1 : (s1.nodes d).kind = k := by rw [(m1 d).1, hd0]
  have mn1 : (s1.nodes d).mat = ⟨[], [], []⟩ := by rw [(m1 d).2.1, hd0]
  have bn1 : (s1.nodes d).built = true := (m1 d).2.2 (by rw [hd0])
  have mt1 : (s1.nodes t).mat = m := by rw [(m1 t).2.1, f0 t htd, mt]
  have eh : s1.heap = s.heap := e1
  refine ⟨{ (s1.setNode d { s1.nodes d with mat := M }) with heap := allocZ a s.heap, ctx := s1.ctx ++ o }, nop1, ?_, a1, rfl, ?_, ?_, ?_⟩
  · show Store.build (fuel + 1 + 1) d s = _
    rw [Store.build]
    rw [if_neg (by simp [bn])]
    show ((Store.each (fun c s => Store.build (fuel + 1) c s) (s.nodes d).kind.kids s0).bind fun _ s => Store.finish d s) = _
    rw [kn, hk]
    simp only [Store.each]
    rw [b1]
    simp only [Out.bind_ok, Store.finish]
    rw [kn1, mn1, eh, hrun _ mt1]
  · show s1.ctx ++ o = _
    rw [c1]; simp [hs0, Store.setNode]
  · simp only [Store.setNode, if_pos, kn1, bn1]
  · intro x hx
    simp only [Store.setNode, if_neg hx]
    rw [(m1 x).1, (m1 x).2.1, f0 x hx]
    exact ⟨rfl, rfl, fun h => (m1 x).2.2 (by rw [f0 x hx]; exact h)⟩

/-- the operations for the sum of the absolute values of `M` -/
def lossOps (lo : Nat) (M : Mat) : List (Op T) :=
  asgs lo ((List.range (size M.shape)).map fun i => Rhs.abs (M.ops.getD i 0)) ++
    [.asg (lo + size M.shape) (.sum (List.range' lo (size M.shape)))]

/-- `tensor.Sum(tensor.Abs(t))` and `BuildGraph` -/
theorem wp_loss {β : Type} {w : World T} {t : Nat} {M : Mat} {f : Ptr → Run T β} {Q : β → World T → Prop} (r : Ready w t M)
    (h : ∀ w' nops, AllNop nops → Lay (fun _ => False) (nops ++ lossOps w.store.heap.next M) w w' →
      w'.store.heap.next = w.store.heap.next + size M.shape + 1 → wp True (f (w.store.heap.next + size M.shape)) Q w') :
    wp True (do
      let a ← Run.lazy (.abs t)
      let s ← Run.lazy (.math .sum a)
      LayerM.ignoreErr (Run.buildGraph s)
      let l ← Run.operandAt s 0
      f l : Run T β) Q w := by
  refine wp_bind (wp_lazy (L := fun _ => False) (C := fun _ => False) fun wa ga la ha na xa oa => ?_)
  refine wp_bind (wp_lazy (L := fun _ => False) (C := fun _ => False) fun wb gb lb hb nb xb ob => ?_)
  set a := w.nodeNext with hA
  set s := wa.nodeNext with hS
  have hsa : s = a + 1 := na
  have ht : t < a := r.lt
  have gab : Grow (fun _ => False) (fun _ => False) [] w wb := by simpa using ga.trans gb
  have rb : Ready wb t M := r.grow gab
  have hab : wb.store.nodes a = Store.lazyNode (.abs t) [] := by rw [ob a (by omega), xa]
  have hhb : wb.store.heap = w.store.heap := by rw [hb, ha]
  -- the build
  set s0 : Store T := wb.store.setNode s { wb.store.nodes s with built := true } with hs0
  have f0 : ∀ x, x ≠ s → s0.nodes x = wb.store.nodes x := fun x hx => by
    simp only [hs0, Store.setNode]; rw [if_neg hx]
  have ft : frozen s0 t := by have := rb.frozen; unfold frozen at this ⊢; rwa [f0 t (by omega)]
  have hh0 : s0.heap = w.store.heap := hhb
  obtain ⟨j, hj⟩ : ∃ j, s = j + 2 ∨ s = j + 1 ∧ j = 0 := by
    rcases Nat.lt_or_ge s 2 with h | h
    · exact ⟨0, Or.inr ⟨by omega, rfl⟩⟩
    · exact ⟨s - 2, Or.inl (by omega)⟩
  rcases hj with hj | ⟨hj, hj0⟩
  swap
  · omega
  obtain ⟨s1, nops, b1, a1, e1, c1, d1, o1⟩ := build1_store (fuel := j) (m := M) (k := .abs t) (a := size M.shape)
    (o := asgs w.store.heap.next ((List.range (size M.shape)).map fun i => Rhs.abs (M.ops.getD i 0)))
    (M := ⟨M.shape, M.mul, List.range' w.store.heap.next (size M.shape)⟩)
    (s := s0) (d := a) (t := t) (by rw [f0 a (by omega), hab]) rfl ft (by rw [f0 t (by omega), rb.mat]) (by omega) (by
      intro get hget ctx
      simp only [Fin.run, hget]
      rw [hh0]
      exact unary_run r.good)
  have hds : s0.nodes s = ⟨.math .sum a, ⟨[], [], []⟩, true⟩ := by
    simp only [hs0, Store.setNode, if_pos, xb]; rfl
  obtain ⟨k1, k2, k3⟩ := o1 s (by omega)
  rw [hds] at k1 k2 k3
  have k3 := k3 rfl
  have kwb : (wb.store.nodes s).kind = .math .sum a := by rw [xb]; rfl
  have bwb : (wb.store.nodes s).built = false := by rw [xb]; rfl
  set n := size M.shape with hn
  set s2 : Store T := { (s1.setNode s { s1.nodes s with mat := ⟨[1], [1], [w.store.heap.next + n]⟩ }) with
    heap := allocZ (n + 1) w.store.heap, ctx := s1.ctx ++ [.asg (w.store.heap.next + n) (.sum (List.range' w.store.heap.next n))] } with hs2
  have e : Run.buildGraph s wb = .ok () { wb with store := s2 } := by
    have : Store.build (s + 1) s wb.store = .ok () s2 := by
      rw [Store.build]
      rw [if_neg (by simp [bwb])]
      show ((Store.each (fun c x => Store.build s c x) (wb.store.nodes s).kind.kids s0).bind fun _ x => Store.finish s x) = _
      rw [kwb]
      show ((Store.each (fun c x => Store.build s c x) [a] s0).bind fun _ x => Store.finish s x) = _
      simp only [Store.each]
      rw [hj, b1, ← hj]
      simp only [Out.bind_ok, Store.finish]
      have hz : ((allocZ n w.store.heap).alloc (zero : T)).2 = allocZ (n + 1) w.store.heap := by
        rw [← allocZ_allocZ 1 n, ← allocZ_succ 0 (allocZ n w.store.heap), allocZ_zero]
      simp only [k1, Fin.run, d1, Fin.math, FSt.emit, e1, hh0, hs2, allocZ_next, hz]
      rfl
    simp only [Run.buildGraph, Run.store, this]
  have ei : LayerM.ignoreErr (Run.buildGraph s) wb = .ok () { wb with store := s2 } := by
    simp only [LayerM.ignoreErr, e]
  refine wp_bind (wp_of_ok ei ?_)
  have hop : Run.operandAt s 0 ({ wb with store := s2 } : World T) = .ok (w.store.heap.next + n) { wb with store := s2 } := by
    have : (s2.nodes s).mat.ops = [w.store.heap.next + n] := by
      simp only [hs2, Store.setNode, if_pos]
    show (Run.lift (Res.index (s2.nodes s).mat.ops 0) : Run T Ptr) _ = _
    rw [this]; rfl
  refine wp_bind (wp_of_ok hop (h _ nops a1 ?_ (by show (allocZ (n + 1) w.store.heap).next = _; simp; omega)))
  have nf : ∀ x, x < w.nodeNext → s2.nodes x = s1.nodes x := fun x hx => by
    simp only [hs2, Store.setNode]; rw [if_neg (by omega)]
  have nk : ∀ x, x < w.nodeNext → (s2.nodes x).kind = (w.store.nodes x).kind ∧ (s2.nodes x).mat = (w.store.nodes x).mat ∧
      ((w.store.nodes x).built = true → (s2.nodes x).built = true) := fun x hx => by
    obtain ⟨q1, q2, q3⟩ := o1 x (by omega)
    rw [nf x hx, q1, q2, f0 x (by omega), ob x (by omega), oa x (by omega)]
    refine ⟨rfl, rfl, fun hb => q3 ?_⟩
    rw [f0 x (by omega), ob x (by omega), oa x (by omega)]; exact hb
  refine ⟨⟨(extends_allocZ _ _).next, fun q h1 _ => (extends_allocZ _ _).val q h1, ?_, fun x hx => (nk x hx).1, fun x hx hf => ?_,
    fun l _ => ?_, gab.layerNext, gab.nets, gab.netNext, ?_⟩, allocZ_val _ _⟩
  · show w.nodeNext ≤ wb.nodeNext; omega
  · refine ⟨?_, (nk x hx).2.1⟩
    rcases frozen_cases hf with hb | hl
    · exact Or.inl ((nk x hx).2.2 hb)
    · right
      show (match (s2.nodes x).kind with
        | .leaf => True
        | _ => False)
      rw [(nk x hx).1, hl]; trivial
  · show wb.layers l = _; rw [lb, la]
  · show s1.ctx ++ _ = _
    rw [c1]
    have : s0.ctx = w.store.ctx := by
      show wb.store.ctx = _
      rw [gab.ctx]; simp
    rw [this]
    simp [lossOps, hn]

end Godeep
