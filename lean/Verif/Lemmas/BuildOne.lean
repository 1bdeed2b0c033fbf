import Verif.Lemmas.FFConv
import Verif.Lemmas.Sat
/-
  Code that builds part of a graph out of new zero scalars, and `BuildGraph` of a tensor made from one
  that is ready.
-/
set_option linter.unusedSectionVars false

namespace Godeep
open Spec GoNum

variable {T : Type} {α β : Type} [GoNum T]

theorem AllNop.reads {ops : List (Op T)} (h : AllNop ops) : ∀ o ∈ ops, o.reads = [] := by
  intro o ho
  obtain ⟨p, rfl⟩ := h o ho
  rfl

theorem AllNop.ssa1 {ops : List (Op T)} (h : AllNop ops) : SSA1 ops := by
  refine List.pairwise_of_forall_mem_list fun o ho o' ho' q hq => ?_
  obtain ⟨p, rfl⟩ := h o' ho'
  cases hq

theorem AllNop.fine {ops : List (Op T)} (h : AllNop ops) : ∀ o ∈ ops, Fine o := by
  intro o ho
  obtain ⟨p, rfl⟩ := h o ho
  trivial

theorem allNop_nil : AllNop ([] : List (Op T)) := fun _ h => by cases h

theorem AllNop.append {a b : List (Op T)} (ha : AllNop a) (hb : AllNop b) : AllNop (a ++ b) := fun o ho =>
  (List.mem_append.1 ho).elim (ha o) (hb o)

/-- no scalar is changed, and the new ones are zero -/
structure Lay (L : Nat → Prop) (new : List (Op T)) (w w' : World T) : Prop where
  grow : Grow L (fun _ => False) new w w'
  zero : ∀ q, w.store.heap.next ≤ q → q < w'.store.heap.next → w'.store.heap.val q = GoNum.zero

theorem Lay.refl (L : Nat → Prop) (w : World T) : Lay L [] w w := ⟨Grow.refl _ _ w, fun q h1 h2 => by omega⟩

theorem Lay.trans {L : Nat → Prop} {n1 n2 : List (Op T)} {w1 w2 w3 : World T} (a : Lay L n1 w1 w2) (b : Lay L n2 w2 w3) :
    Lay L (n1 ++ n2) w1 w3 := by
  refine ⟨a.grow.trans b.grow, fun q h1 h2 => ?_⟩
  by_cases h : q < w2.store.heap.next
  · rw [b.grow.val q h (fun h => h), a.zero q h1 h]
  · exact b.zero q (by omega) h2

theorem Lay.weaken {L L' : Nat → Prop} {new : List (Op T)} {w w' : World T} (a : Lay L new w w') (h : ∀ l, L l → L' l) :
    Lay L' new w w' := ⟨a.grow.weaken h fun _ h => h, a.zero⟩

theorem Lay.val {L : Nat → Prop} {new : List (Op T)} {w w' : World T} (a : Lay L new w w') {q : Ptr}
    (h : q < w.store.heap.next) : w'.store.heap.val q = w.store.heap.val q := a.grow.val q h fun h => h

theorem lay_modify {L : Nat → Prop} {l : Nat} (hl : L l) (f : Layer T → Layer T) (w : World T) :
    Lay L [] w { w with layers := fun k => if k = l then f (w.layers k) else w.layers k } :=
  ⟨grow_modify hl f w, fun q h1 h2 => by
    have : q < w.store.heap.next := h2
    omega⟩

theorem lay_emitted {L : Nat → Prop} (k : Nat) (o : List (Op T)) (w : World T) : Lay L o w (emitted k o w) :=
  ⟨grow_emitted k o w, fun q h1 h2 => allocZ_val k w.store.heap q h1 h2⟩

/-- `NewZeros` -/
theorem wp_zeros' {tot : Prop} {shape : List Nat} {L : Nat → Prop} {w : World T}
    {Q : Nat → World T → Prop} (hpos : 0 < w.store.heap.next)
    (h : ∀ w' m, Lay L [] w w' → w'.layers = w.layers → w'.nodeNext = w.nodeNext + 1 → Ready w' w.nodeNext m →
      m.shape = shape → m.ops.Nodup → (∀ p ∈ m.ops, w.store.heap.next ≤ p ∧ p < w'.store.heap.next) →
      (w'.store.nodes w.nodeNext).kind = .leaf → Q w.nodeNext w') :
    wp tot (Run.zeros shape) Q w := by
  obtain ⟨h', h1, h2, h3, h4⟩ := allocEach_ok (f := fun (_ : Nat) (_ : Heap T) => Res.ok (zero : T)) (v := fun _ => zero)
    (l := List.range (dataSize shape)) (h := w.store.heap) (fun _ _ _ _ => rfl)
  obtain ⟨h'', m, x1, x2, x3⟩ := newZeros_new shape (h := w.store.heap) hpos
  have e : h'' = h' ∧ m = ⟨shape, indexMul shape, List.range' w.store.heap.next (size shape)⟩ := by
    have : Mat.newZeros shape w.store.heap = .ok ⟨shape, indexMul shape, List.range' w.store.heap.next (size shape)⟩ h' := by
      simp only [Mat.newZeros, h1, Out.map_ok]; simp
    rw [x1] at this
    injection this with a b
    exact ⟨b, a⟩
  obtain ⟨rfl, rfl⟩ := e
  rw [List.length_range, dataSize_eq] at h3 h4
  refine wp_leaf (L := L) (C := fun _ => False) x1 x3 fun w' g hh hl hn hk hr => ?_
  refine h w' _ ⟨g, fun q a b => ?_⟩ hl hn hr x2 x3.nodup (fun p hp => ⟨x3.fresh p hp, (hr.good.valid p hp).2⟩) (by rw [hk])
  rw [hh] at b ⊢
  rw [h3] at b
  obtain ⟨i, rfl⟩ : ∃ i, q = w.store.heap.next + i := ⟨q - w.store.heap.next, by omega⟩
  have := congrArg (fun l => l[i]?) h4
  rw [List.getElem?_map, List.getElem?_map, List.getElem?_range' (by omega), List.getElem?_range (by omega)] at this
  simpa using this

theorem wp_scalar' {tot : Prop} {L : Nat → Prop} {w : World T} {Q : Ptr → World T → Prop}
    (h : ∀ w', Lay L [] w w' → w'.store.heap.next = w.store.heap.next + 1 →
      w'.layers = w.layers → w'.store.nodes = w.store.nodes → w'.nodeNext = w.nodeNext → Q w.store.heap.next w') :
    wp tot (Run.scalar (zero : T)) Q w := by
  refine wp_scalar (L := L) (C := fun _ => False) fun w' g h1 h2 h3 h4 h5 => h w' ⟨g, fun q a b => ?_⟩ h1 h3 h4 h5
  obtain rfl : q = w.store.heap.next := by omega
  exact h2

theorem SameNodes.lay {L : Nat → Prop} {w : World T} {s' : Store T} {nops : List (Op T)} (h : SameNodes w.store s')
    (hc : s'.ctx = w.store.ctx ++ nops) (hh : s'.heap = w.store.heap) : Lay L nops w { w with store := s' } := by
  refine ⟨⟨by show _ ≤ s'.heap.next; rw [hh], fun q _ _ => by show s'.heap.val q = _; rw [hh], le_refl _,
    fun n _ => (h n).1, fun n _ hf => ⟨h.frozen hf, (h n).2.1⟩, fun _ _ => rfl, rfl, rfl, rfl, hc⟩, fun q h1 h2 => ?_⟩
  have : q < s'.heap.next := h2
  rw [hh] at this
  omega

/-- `BuildGraph` of a tensor that is ready -/
theorem wp_buildReady {tot : Prop} {L : Nat → Prop} {w : World T} {n : Nat} {m : Mat} {Q : Unit → World T → Prop}
    (r : Ready w n m)
    (h : ∀ w' nops, AllNop nops → Lay L nops w w' → w'.layers = w.layers → w'.nodeNext = w.nodeNext →
      w'.store.heap = w.store.heap → Q () w') : wp tot (Run.buildGraph n) Q w := by
  obtain ⟨s', nops, b1, a1, c1, e1, m1⟩ := build_frozen (fuel := n) r.frozen
  have e : Run.buildGraph n w = .ok () { w with store := s' } := by
    simp only [Run.buildGraph, Run.store, b1]
  exact wp_of_ok e (h _ nops a1 (m1.lay c1 e1) rfl rfl e1)

/-- `BuildGraph` of a new tensor made from one that is ready -/
theorem wp_build1 {tot : Prop} {L : Nat → Prop} {w : World T} {d t : Nat} {m : Mat} {k : Kind T} {a : Nat}
    {o : List (Op T)} {M : Mat} {Q : Unit → World T → Prop} (hd : w.store.nodes d = Store.lazyNode k [])
    (hk : k.kids = [t]) (rt : Ready w t m) (htd : t < d) (hdn : d < w.nodeNext)
    (hrun : ∀ get : Nat → Mat, get t = m → ∀ ctx, Fin.run get k ⟨w.store.heap, ctx, ⟨[], [], []⟩⟩ =
      .ok () ⟨allocZ a w.store.heap, ctx ++ o, M⟩)
    (h : ∀ w' nops, AllNop nops → Lay L (nops ++ o) w w' → w'.layers = w.layers → w'.nodeNext = w.nodeNext →
      w'.store.heap.next = w.store.heap.next + a →
      (ScalarOK w.store.heap k → k.isExpr → GoodMat (allocZ a w.store.heap) M → Ready w' d M) → Q () w') :
    wp tot (Run.buildGraph d) Q w := by
  set s0 : Store T := w.store.setNode d { w.store.nodes d with built := true } with hs0
  have f0 : ∀ x, x ≠ d → s0.nodes x = w.store.nodes x := fun x hx => by
    simp only [hs0, Store.setNode]; rw [if_neg hx]
  have ft0 : frozen s0 t := by have := rt.frozen; unfold frozen at this ⊢; rwa [f0 t (by omega)]
  obtain ⟨j, hj⟩ : ∃ j, d = j + 1 := ⟨d - 1, by omega⟩
  obtain ⟨s1, nop1, b1, a1, c1, e1, m1⟩ := build_frozen (fuel := j) ft0
  have kn : (w.store.nodes d).kind = k := by rw [hd]; rfl
  have bn : (w.store.nodes d).built = false := by rw [hd]; rfl
  have hd0 : s0.nodes d = ⟨k, ⟨[], [], []⟩, true⟩ := by
    simp only [hs0, Store.setNode, if_pos, hd]; rfl
  have kn1 : (s1.nodes d).kind = k := by rw [(m1 d).1, hd0]
  have mn1 : (s1.nodes d).mat = ⟨[], [], []⟩ := by rw [(m1 d).2.1, hd0]
  have bn1 : (s1.nodes d).built = true := (m1 d).2.2 (by rw [hd0])
  have mt : (s1.nodes t).mat = m := by rw [(m1 t).2.1, f0 t (by omega), rt.mat]
  have eh : s1.heap = w.store.heap := e1
  set s2 : Store T := { (s1.setNode d { s1.nodes d with mat := M }) with heap := allocZ a w.store.heap, ctx := s1.ctx ++ o } with hs2
  have e : Run.buildGraph d w = .ok () { w with store := s2 } := by
    have : Store.build (d + 1) d w.store = .ok () s2 := by
      simp only [Store.build]
      rw [if_neg (by simp [bn])]
      show ((Store.each (fun c s => Store.build d c s) (w.store.nodes d).kind.kids s0).bind fun _ s => Store.finish d s) = _
      rw [kn, hk]
      simp only [Store.each]
      rw [show Store.build d t s0 = Store.build (j + 1) t s0 by rw [← hj], b1]
      simp only [Out.bind_ok, Store.finish]
      rw [kn1, mn1, eh, hrun _ mt]
      simp only [hs2, kn1]
    simp only [Run.buildGraph, Run.store, this]
  have hnode : ∀ x, x ≠ d → s2.nodes x = s1.nodes x := by
    intro x hx
    simp only [hs2, Store.setNode]; rw [if_neg hx]
  have hnd : s2.nodes d = ⟨k, M, true⟩ := by
    simp only [hs2, Store.setNode, if_pos, kn1, bn1]
  have hnf : ¬ frozen w.store d := by
    intro hf
    rcases frozen_cases hf with hb | hl
    · rw [bn] at hb; cases hb
    · rw [kn] at hl; rw [hl] at hk; simp [Kind.kids] at hk
  have hlay : Lay L (nop1 ++ o) w { w with store := s2 } := by
    refine ⟨⟨(extends_allocZ a _).next, fun q h1 _ => (extends_allocZ a _).val q h1, le_refl _, fun n hn => ?_, fun n hn hf => ?_,
      fun _ _ => rfl, rfl, rfl, rfl, ?_⟩, allocZ_val a _⟩
    · by_cases hnd' : n = d
      · rw [hnd', kn]; show (s2.nodes d).kind = k; rw [hnd]
      · show (s2.nodes n).kind = _; rw [hnode n hnd', (m1 n).1, f0 n hnd']
    · have hne : n ≠ d := fun h => hnf (h ▸ hf)
      refine ⟨?_, ?_⟩
      · have h3 : frozen s1 n := m1.frozen (by unfold frozen at hf ⊢; rw [f0 n hne]; exact hf)
        show frozen s2 n
        unfold frozen at h3 ⊢
        rw [hnode n hne]; exact h3
      · show (s2.nodes n).mat = _; rw [hnode n hne, (m1 n).2.1, f0 n hne]
    · show s1.ctx ++ o = _
      rw [c1]; simp [hs0, Store.setNode]
  refine wp_of_ok e (h _ nop1 a1 hlay rfl rfl rfl fun hs he hg => ?_)
  refine ⟨hdn, ?_, Or.inl ?_, hg, ?_, ?_, ?_⟩
  · show (s2.nodes d).mat = M; rw [hnd]
  · show (s2.nodes d).built = true; rw [hnd]
  · show ∀ c ∈ (s2.nodes d).kind.kids, c < d
    rw [hnd]; simp only [hk, List.mem_singleton, forall_eq]; exact htd
  · show ScalarOK s2.heap (s2.nodes d).kind
    rw [hnd]; exact scalarOK_mono hs (extends_allocZ a _).next
  · show (s2.nodes d).kind.isExpr; rw [hnd]; exact he

/-- the pattern of `Activate` and `Abs` -/
theorem unary_run {r : Ptr → Rhs T} {m : Mat} {h h0 : Heap T} {ctx : List (Op T)} {e : Mat} (g : GoodMat h0 m) :
    Fin.unary r m ⟨h, ctx, e⟩ = .ok () ⟨allocZ (size m.shape) h,
      ctx ++ asgs h.next ((List.range (size m.shape)).map fun i => r (m.ops.getD i 0)),
      ⟨m.shape, m.mul, List.range' h.next (size m.shape)⟩⟩ := by
  unfold Fin.unary
  rw [emitLoop_ok (r := fun i => r (m.ops.getD i 0))]
  · simp [Mat.getSize, g.len]
  · intro i hi
    simp only [List.mem_range, Mat.getSize] at hi
    simp [Res.index, hi]

theorem good_range' {h : Heap T} {sh : List Nat} (hpos : 0 < h.next) :
    GoodMat (allocZ (size sh) h) ⟨sh, indexMul sh, List.range' h.next (size sh)⟩ := by
  refine ⟨rfl, by simp, fun p hp => ?_⟩
  simp only [List.mem_range'_1] at hp
  exact ⟨by omega, by simp only [allocZ_next]; omega⟩

end Godeep
