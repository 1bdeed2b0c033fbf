import Verif.Lemmas.Write
import Verif.Props.Graph
/-
  C29: `Fill` and `Transfer` in a graph.
-/
set_option linter.unusedSectionVars false

namespace Godeep.Props
open Godeep Spec GoNum

variable {T : Type} [GoNum T]

theorem flat_ofValues {vs : List T} {shape : List Nat} (hl : vs.length = size shape) :
    (STensor.ofValues vs shape).flat = vs := by
  rw [ofValues_flat, ← hl]
  apply List.ext_getElem
  · simp
  · intro k h1 h2
    simp [List.getD, h2]

theorem newGraph_build {s s' : Store T} {n : Nat} {ops : List (Op T)} (h : s.newGraph n = .ok ops s') :
    Store.build (n + 1) n { s with ctx := [] } = .ok () s' ∧ ops = s'.ctx := by
  unfold Store.newGraph at h
  cases hb : Store.build (n + 1) n { s with ctx := [] } with
  | ok u s1 =>
    rw [hb] at h
    simp only [Out.ok.injEq] at h
    obtain ⟨h1, rfl⟩ := h
    exact ⟨rfl, h1.symm⟩
  | err e s1 => rw [hb] at h; cases h
  | panic => rw [hb] at h; cases h

/-- A graph for `Fill(t, v)`, where `t` is any tensor expression or data tensor and `v` a scalar:
executing it makes every element of `t` equal to `v`'s value.  `v` keeps its value, and so does
every other older scalar. -/
theorem C29_fill (s s' : Store T) (n t : Nat) (v : Ptr) (shape : List Nat) (ops : List (Op T))
    (hn : s.nodes n = Store.lazyNode (.fill t v) shape) (htn : t < n) (hE : Expr s t)
    (hv : Valid s.heap v) (hpos : 0 < s.heap.next) (hg : s.newGraph n = .ok ops s') (h h' : Heap T)
    (hnext : s'.heap.next ≤ h.next) (he : exec ops h = .ok () h') :
    (s'.nodes n).mat = (s'.nodes t).mat ∧
    Holds h' (s'.nodes t).mat ⟨(s'.nodes t).mat.shape, fun _ => h.val v⟩ ∧
    h'.val v = h.val v ∧
    ∀ q, q < s.heap.next → q ∉ (s'.nodes t).mat.ops → h'.val q = h.val q := by
  obtain ⟨hb, rfl⟩ := newGraph_build hg
  have hkind : (s.nodes n).kind = .fill t v := by rw [hn]; rfl
  obtain ⟨s1, f, B, h1, h2, h3⟩ := build_step (s := { s with ctx := [] }) (by simp [hn, Store.lazyNode])
    (fun c hc => by
      simp only [hkind, Kind.kids, List.mem_singleton] at hc
      subst hc
      exact ⟨htn, expr_ctx hE⟩) hpos hb
  simp only [hkind, Fin.run, Fin.fill, Out.ok.injEq, true_and] at h2
  subst h2
  have hne : t ≠ n := by omega
  have hm : (s'.nodes t).mat = (s1.nodes t).mat := by rw [h3]; simp [Store.setNode, hne]
  have hmn : (s'.nodes n).mat = (s1.nodes t).mat := by rw [h3]; simp [Store.setNode]
  have hctx : s'.ctx = s1.ctx ++ (s1.nodes t).mat.ops.map fun p => .asg p (.set v) := by rw [h3]
  have hheap : s'.heap = s1.heap := by rw [h3]
  rw [hctx, exec_append_ok] at he
  obtain ⟨hm1, e1, e2⟩ := he
  have hgood := (B.done t ⟨t, by simp [hkind, Kind.kids], .refl t⟩).2
  obtain ⟨new, hc1, bl⟩ := B.ctx
  have hc1' : s1.ctx = new := hc1
  have hold : ∀ q, q < s.heap.next → hm1.val q = h.val q := fun q hq =>
    exec_keeps e1 fun r hr => by
      have := bl.dst q (mem_dsts.2 ⟨r, hc1' ▸ hr⟩)
      have h4 : s.heap.next ≤ q := this.1
      omega
  obtain ⟨f1, f2, f3, f4⟩ := exec_fill _ _ _ e2
  have hn1 := (exec_frame e1).1
  refine ⟨by rw [hmn, hm], ?_, by rw [f4, hold v hv.2], fun q hq hqt => ?_⟩
  · rw [hm]
    refine holds_of_flat rfl hgood.mul (fun p hp => ?_) ?_
    · have := hgood.valid p hp
      exact ⟨this.1, by rw [f3, hn1]; rw [hheap] at hnext; exact lt_of_lt_of_le this.2 hnext⟩
    · rw [List.map_congr_left (g := fun _ => h.val v) (fun p hp => by rw [f1 p hp, hold v hv.2])]
      simp only [STensor.flat, List.map_const']
      rw [hgood.len, allIdx_length]
  · rw [f2 q (by rw [← hm]; exact hqt), hold q hq]

/-- filling a data tensor with a scalar -/
example : ∃ ops s' h', (Demo.two [2, 2] [1] (.fill 0 5)).newGraph 2 = .ok ops s' ∧
    exec ops (s'.heap.put 5 9) = .ok () h' ∧ (s'.nodes 0).mat.getData h' = .ok [9, 9, 9, 9] :=
  ⟨_, _, _, rfl, rfl, rfl⟩

/-- A graph for `Transfer(f, t)` built with success: the sizes are equal, and if `t` is made of older
scalars (a data tensor, say), none of which occurs twice in `t` or in both, executing it leaves in `t` the elements of `f`, which are the value of `f`
on the data at the start; `f` holds its value too; other older scalars keep theirs. -/
theorem C29_transfer (s s' : Store T) (n f t : Nat) (shape : List Nat) (ops : List (Op T))
    (hn : s.nodes n = Store.lazyNode (.copy f t) shape) (hfn : f < n) (htn : t < n) (hEf : Expr s f)
    (hEt : Expr s t) (hpos : 0 < s.heap.next) (hg : s.newGraph n = .ok ops s')
    (hold : ∀ p ∈ (s'.nodes t).mat.ops, p < s.heap.next)
    (hnd : (s'.nodes t).mat.ops.Nodup) (hdis : ∀ p ∈ (s'.nodes t).mat.ops, p ∉ (s'.nodes f).mat.ops)
    (h h' : Heap T) (hk : PadKept s.heap.next s'.heap.next ops s'.heap h) (he : exec ops h = .ok () h')
    (x : STensor T) (hx : value s h.val (f + 1) f = some x) :
    size (s'.nodes t).mat.shape = size x.shape ∧
    Holds h' (s'.nodes t).mat (STensor.ofValues x.flat (s'.nodes t).mat.shape) ∧
    Holds h' (s'.nodes f).mat x ∧
    ∀ q, q < s.heap.next → q ∉ (s'.nodes t).mat.ops → h'.val q = h.val q := by
  obtain ⟨hb, rfl⟩ := newGraph_build hg
  have hkind : (s.nodes n).kind = .copy f t := by rw [hn]; rfl
  have hkE : ∀ c ∈ (s.nodes n).kind.kids, c < n ∧ Expr s c := fun c hc => by
    simp only [hkind, Kind.kids, List.mem_cons, List.not_mem_nil, or_false] at hc
    rcases hc with rfl | rfl
    · exact ⟨hfn, hEf⟩
    · exact ⟨htn, hEt⟩
  obtain ⟨s1, g, B, h1, h2, h3⟩ := build_step (s := { s with ctx := [] }) (by simp [hn, Store.lazyNode])
    (fun c hc => ⟨(hkE c hc).1, expr_ctx (hkE c hc).2⟩) hpos hb
  simp only [hkind, Fin.run, Fin.copy] at h2
  by_cases hsz : (s1.nodes f).mat.getSize ≠ (s1.nodes t).mat.getSize
  · rw [if_pos hsz] at h2; cases h2
  rw [if_neg hsz] at h2
  simp only [Out.ok.injEq, true_and] at h2
  subst h2
  have hft : f ≠ n := by omega
  have hne : t ≠ n := by omega
  have hmt : (s'.nodes t).mat = (s1.nodes t).mat := by rw [h3]; simp [Store.setNode, hne]
  have hmf : (s'.nodes f).mat = (s1.nodes f).mat := by rw [h3]; simp [Store.setNode, hft]
  have hctx : s'.ctx = s1.ctx ++ Fin.copyLoop (s1.nodes t).mat.ops (s1.nodes f).mat.ops := by rw [h3]
  have hheap : s'.heap = s1.heap := by rw [h3]
  rw [hmt, hmf] at hdis
  rw [hmt] at hnd
  have hlen : (s1.nodes t).mat.ops.length = (s1.nodes f).mat.ops.length := by
    simp only [Mat.getSize, ne_eq, not_not] at hsz; exact hsz.symm
  rw [hctx, exec_append_ok] at he
  obtain ⟨hm1, e1, e2⟩ := he
  have hRf : ∃ c ∈ (s.nodes n).kind.kids, Reach { s with ctx := [] } c f :=
    ⟨f, by simp [hkind, Kind.kids], .refl f⟩
  have hRt : ∃ c ∈ (s.nodes n).kind.kids, Reach { s with ctx := [] } c t :=
    ⟨t, by simp [hkind, Kind.kids], .refl t⟩
  have hgt := (B.done t hRt).2
  have bl := block_kept B (new := s1.ctx) rfl
  have hcopy : ∀ (ts fs : List Ptr) (q : Ptr) (r : Rhs T), Op.asg q r ∈ Fin.copyLoop ts fs → q ∈ ts := by
    intro ts
    induction ts with
    | nil => intro fs q r h; simp [Fin.copyLoop] at h
    | cons t ts ih =>
      intro fs q r h
      cases fs with
      | nil => simp [Fin.copyLoop] at h
      | cons f fs =>
        simp only [Fin.copyLoop, List.mem_cons, Op.asg.injEq] at h
        rcases h with h | h
        · simp [h.1]
        · simp [ih fs q r h]
  have hmem : ∀ q r, Op.asg q r ∈ s'.ctx → s.heap.next ≤ q → Op.asg q r ∈ s1.ctx := fun q r hq hl => by
    rw [hctx, List.mem_append] at hq
    rcases hq with hq | hq
    · exact hq
    · have := hold q (by rw [hmt]; exact hcopy _ _ _ _ hq)
      omega
  have hkeep : ∀ q, q < s.heap.next → hm1.val q = h.val q := fun q hq =>
    exec_keeps e1 fun r hr => by
      have h4 : s.heap.next ≤ q := (bl.dst q (mem_dsts.2 ⟨r, hr⟩)).1
      omega
  have hHf : Holds hm1 (s1.nodes f).mat x := by
    refine built_exec B (fun m hm => ?_) (new := s1.ctx) rfl ⟨hheap ▸ hk.1, fun q q1 q2 q3 => ?_⟩ e1 hRf ?_
    · obtain ⟨c, hc, hr⟩ := hm
      have hcE := hkE c hc
      have hle := reach_le (expr_ordered hcE.2) (reach_ctx.1 hr)
      exact (expr_mark (by omega) (expr_reach (expr_ctx hcE.2) hr)).1
    · have := hk.2 q q1 (hheap ▸ q2) (fun r hr => q3 r (hmem q r hr q1))
      rw [this, hheap]
    · rw [value_mark (f + 1) f hfn (expr_ordered (expr_ctx hEf)), value_ctx]
      exact hx
  obtain ⟨c1, c2, c3⟩ := exec_copy _ _ _ _ hlen hnd hdis e2
  have hn1 := (exec_frame e1).1
  have hflat := holds_flat hHf
  have hsize : size (s1.nodes t).mat.shape = size x.shape := by
    rw [← hgt.len, hlen, ← hHf.shape]; exact hHf.len
  rw [hmt, hmf]
  refine ⟨hsize, ?_, ?_, fun q hq hqt => by rw [c2 q hqt, hkeep q hq]⟩
  · refine holds_of_flat rfl hgt.mul (fun p hp => ?_) ?_
    · have := hgt.valid p hp
      exact ⟨this.1, by rw [c3, hn1]; exact lt_of_lt_of_le this.2 (hheap ▸ hk.1)⟩
    · rw [c1, hflat]
      exact (flat_ofValues (by rw [STensor.flat, List.length_map, allIdx_length]; exact hsize.symm)).symm
  · refine holds_of_flat hHf.shape hHf.mul (fun p hp => ?_) ?_
    · have := hHf.valid p hp
      exact ⟨this.1, by rw [c3]; exact this.2⟩
    · rw [← hflat]
      exact List.map_congr_left fun p hp => c2 p fun hpt => hdis p hpt hp

/-- copying a 2 x 3 tensor into a 3 x 2 one -/
example : ∃ ops s' h', (Demo.two [2, 3] [3, 2] (.copy 0 1)).newGraph 2 = .ok ops s' ∧
    exec ops ⟨fun p => p, 13⟩ = .ok () h' ∧ (s'.nodes 1).mat.getData h' = .ok [1, 2, 3, 4, 5, 6] ∧
    (s'.nodes 0).mat.getData h' = .ok [1, 2, 3, 4, 5, 6] :=
  ⟨_, _, _, rfl, rfl, rfl, rfl⟩

/-- Sizes that differ are a build error (here for data tensors or tensors built earlier). -/
theorem C29_transfer_sizes (s : Store T) (n f t : Nat) (shape : List Nat)
    (hn : s.nodes n = Store.lazyNode (.copy f t) shape) (hfn : f < n) (htn : t < n)
    (hf : frozen s f) (ht : frozen s t)
    (hsz : (s.nodes f).mat.getSize ≠ (s.nodes t).mat.getSize) :
    ∃ s', s.newGraph n = .err (.size (s.nodes f).mat.getSize (s.nodes t).mat.getSize) s' := by
  have hone : ∀ (fuel c : Nat) (x : Store T), frozen x c → ∃ x', Store.build (fuel + 1) c x = .ok () x' ∧
      (∀ m, (x'.nodes m).mat = (x.nodes m).mat ∧ (x'.nodes m).kind = (x.nodes m).kind ∧
        ((x.nodes m).built = true → (x'.nodes m).built = true)) := by
    intro fuel c x hc
    by_cases hb : (x.nodes c).built = true
    · exact ⟨x, by simp [Store.build, hb], fun m => ⟨rfl, rfl, id⟩⟩
    · have hl : (x.nodes c).kind = .leaf := by
        rcases frozen_cases hc with h | h
        · exact absurd h hb
        · exact h
      refine ⟨_, by simp [Store.build, hb, hl, Kind.kids, Store.each, Store.finish, Store.setNode, Fin.run, Fin.leaf]; rfl, fun m => ?_⟩
      by_cases hm : m = c
      · subst hm; simp [hl]
      · simp [hm]
  have hfr : ∀ {x y : Store T} {c : Nat}, (y.nodes c).kind = (x.nodes c).kind →
      ((x.nodes c).built = true → (y.nodes c).built = true) → frozen x c → frozen y c := by
    intro x y c h1 h2 h
    rcases frozen_cases h with h | h
    · exact Or.inl (h2 h)
    · exact frozen_leaf (h1.trans h)
  have hft : f ≠ n := by omega
  have htne : t ≠ n := by omega
  have hnpos : ∃ k, n = k + 1 := ⟨n - 1, by omega⟩
  obtain ⟨k, rfl⟩ := hnpos
  set s0 := ({ s with ctx := [] } : Store T).setNode (k + 1) { s.nodes (k + 1) with built := true } with hs0
  have e0 : ∀ c, c ≠ k + 1 → s0.nodes c = s.nodes c := fun c hc => by simp [hs0, Store.setNode, hc]
  obtain ⟨s1, b1, p1⟩ := hone k f s0 (by unfold frozen; rw [e0 f hft]; exact hf)
  obtain ⟨s2, b2, p2⟩ := hone k t s1 (hfr (p1 t).2.1 (p1 t).2.2 (by unfold frozen; rw [e0 t htne]; exact ht))
  have hk2 : (s2.nodes (k + 1)).kind = .copy f t := by
    rw [(p2 _).2.1, (p1 _).2.1, hs0]; simp [Store.setNode, hn, Store.lazyNode]
  have hmf : (s2.nodes f).mat = (s.nodes f).mat := by rw [(p2 f).1, (p1 f).1, e0 f hft]
  have hmt : (s2.nodes t).mat = (s.nodes t).mat := by rw [(p2 t).1, (p1 t).1, e0 t htne]
  have hb0 : (s.nodes (k + 1)).built = false := by rw [hn]; rfl
  have hkind : (s.nodes (k + 1)).kind = .copy f t := by rw [hn]; rfl
  have hbuild : Store.build (k + 1 + 1) (k + 1) { s with ctx := [] } = Store.finish (k + 1) s2 := by
    rw [Store.build]
    simp only [hb0, Bool.false_eq_true, if_false, hkind, Kind.kids, Store.each, ← hs0]
    rw [show ({ s.nodes (k + 1) with built := true } : Node T) = ⟨.copy f t, (s.nodes (k + 1)).mat, true⟩ by rw [← hkind]] at hs0
    rw [← hs0, b1, Out.bind_ok, b2]
    rfl
  unfold Store.newGraph
  rw [hbuild]
  simp only [Store.finish, hk2, Fin.run, Fin.copy, hmf, hmt]
  rw [if_pos hsz]
  exact ⟨_, rfl⟩

example : Demo.outcome ((Demo.two [2, 3] [5] (.copy 0 1)).newGraph 2) = 1 := by decide +kernel

end Godeep.Props
