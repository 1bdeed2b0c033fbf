import Verif.Lemmas.Graph
/-
  `FillWith` and `CopyTo` (`Fill`, `Transfer`): the graph of the tensors they refer to, followed by
  assignments to the target's own scalars.
-/
set_option linter.unusedSectionVars false

namespace Godeep
open Spec GoNum

variable {T : Type} [GoNum T]

theorem block_kept {R : Nat → Prop} {s s' : Store T} (B : Built R s s') {new : List (Op T)}
    (hc : s'.ctx = s.ctx ++ new) : Block s.heap.next s'.heap.next new
    (fun val => ∀ m, R m → (s.nodes m).built = false →
      Sem (s.nodes m).kind (fun c => (s'.nodes c).mat) (s'.nodes m).mat val)
    (∀ m, R m → (s.nodes m).built = false →
      (s.nodes m).kind.redOK fun c => (s'.nodes c).mat.shape) := by
  obtain ⟨new', h1, h2⟩ := B.ctx
  rw [hc, List.append_cancel_left_eq] at h1
  rw [h1]; exact h2

/-- executing the operations added by a build: every tensor built holds its value -/
theorem built_exec {R : Nat → Prop} {s s' : Store T} (B : Built R s s') (hE : ∀ m, R m → Expr s m)
    {new : List (Op T)} (hc : s'.ctx = s.ctx ++ new) {h h' : Heap T}
    (hk : PadKept s.heap.next s'.heap.next new s'.heap h) (he : exec new h = .ok () h')
    {m : Nat} (hm : R m) {t : STensor T} (hv : value s h.val (m + 1) m = some t) :
    Holds h' (s'.nodes m).mat t := by
  have bl := block_kept B hc
  have hold : ∀ q, q < s.heap.next → h'.val q = h.val q := fun q hq =>
    exec_keeps he fun r hr => by have := bl.dst q (mem_dsts.2 ⟨r, hr⟩); omega
  have hsem := bl.run h h' (fun q h1 h2 h3 => by
    rw [hk.2 q h1 h2 (fun r hr => h3 (mem_dsts.2 ⟨r, hr⟩))]
    exact B.zero q h1 h2) he
  have hv' : value s h'.val (m + 1) m = some t := by
    rw [value_congr hold _ _ (hE m hm), hv]
  obtain ⟨h1, h2⟩ := built_value B hsem (m + 1) m t hm hv'
  have hgm := (B.done m hm).2
  refine holds_of_flat h1 hgm.mul (fun p hp => ?_) h2
  have hn := (exec_frame he).1
  have := hgm.valid p hp
  exact ⟨this.1, by rw [hn]; exact lt_of_lt_of_le this.2 hk.1⟩

theorem value_mark {s : Store T} {n : Nat} {x : Node T} {val : Ptr → T} : ∀ (fuel m : Nat), m < n → Ordered s m →
    value (s.setNode n x) val fuel m = value s val fuel m := by
  have h0 : ∀ y, y ≠ n → (s.setNode n x).nodes y = s.nodes y := fun y hy => by simp [Store.setNode, hy]
  intro fuel
  induction fuel with
  | zero => intro m _ _; rfl
  | succ fuel ih =>
    intro m hm ho
    have hx := h0 m (by omega)
    have hfr : frozen (s.setNode n x) m ↔ frozen s m := by unfold frozen; rw [hx]
    simp only [value]
    by_cases hf : frozen s m
    · rw [if_pos hf, if_pos (hfr.2 hf), hx]
    · rw [if_neg hf, if_neg (fun h => hf (hfr.1 h)), hx]
      have hk : ∀ c ∈ (s.nodes m).kind.kids, value (s.setNode n x) val fuel c = value s val fuel c := by
        intro c hc
        have := ho m (.refl m) c hc
        exact ih c (by omega) (fun y hy => ho y (.step (not_frozen hf).1 hc hy))
      have hall : ((s.nodes m).kind.kids.all fun c => (value (s.setNode n x) val fuel c).isSome) =
          ((s.nodes m).kind.kids.all fun c => (value s val fuel c).isSome) := by
        rw [Bool.eq_iff_iff, List.all_eq_true, List.all_eq_true]
        exact forall₂_congr fun c hc => by rw [hk c hc]
      rw [hall, den_congr (env := fun c => ((value (s.setNode n x) val fuel c).getD ⟨[], fun _ => zero⟩).tab)
        (env' := fun c => ((value s val fuel c).getD ⟨[], fun _ => zero⟩).tab)
        (fun c hc => by rw [hk c hc]) (fun _ _ _ _ => rfl) (fun _ _ => rfl)]

/-- a build, split into the part before the tensor's own operations and that part -/
theorem build_step {s s' : Store T} {n fuel : Nat} (hb : (s.nodes n).built = false)
    (hk : ∀ c ∈ (s.nodes n).kind.kids, c < n ∧ Expr s c) (hpos : 0 < s.heap.next)
    (hg : Store.build (fuel + 1) n s = .ok () s') :
    ∃ s1 f, Built (fun m => ∃ c ∈ (s.nodes n).kind.kids, Reach s c m) (s.setNode n { s.nodes n with built := true }) s1 ∧
      (s1.nodes n) = { s.nodes n with built := true } ∧
      Fin.run (fun m => (s1.nodes m).mat) (s.nodes n).kind ⟨s1.heap, s1.ctx, (s.nodes n).mat⟩ = .ok () f ∧
      s' = { (s1.setNode n ⟨(s.nodes n).kind, f.mat, true⟩) with heap := f.heap, ctx := f.ctx } := by
  simp only [Store.build] at hg
  rw [if_neg (by simp [hb])] at hg
  set s0 := s.setNode n { s.nodes n with built := true } with hs0
  have hk0 : ∀ c ∈ (s.nodes n).kind.kids, c < n ∧ Expr s0 c ∧ ∀ m, Reach s0 c m ↔ Reach s c m := fun c hc =>
    ⟨(hk c hc).1, expr_mark (hk c hc).1 (hk c hc).2⟩
  cases he : Store.each (fun c s => Store.build fuel c s) (s.nodes n).kind.kids s0 with
  | panic => rw [he] at hg; cases hg
  | err e s1 => rw [he] at hg; cases hg
  | ok u s1 =>
    rw [he, Out.bind_ok] at hg
    have B := each_ok (fun c s s' => build_ok fuel c s s') (s.nodes n).kind.kids s0 s1
      (fun c hc => (hk0 c hc).2.1) hpos he
    have hnR : ¬ ∃ c ∈ (s.nodes n).kind.kids, Reach s0 c n := by
      rintro ⟨c, hc, hr⟩
      obtain ⟨k1, k2, _⟩ := hk0 c hc
      have := reach_le (expr_ordered k2) hr
      omega
    have hn1 : s1.nodes n = { s.nodes n with built := true } := by
      rw [B.keep n (Or.inr hnR), hs0]; simp [Store.setNode]
    simp only [Store.finish, hn1] at hg
    cases hf : Fin.run (fun m => (s1.nodes m).mat) (s.nodes n).kind ⟨s1.heap, s1.ctx, (s.nodes n).mat⟩ with
    | panic => rw [hf] at hg; cases hg
    | err e f => rw [hf] at hg; cases hg
    | ok u f =>
      rw [hf] at hg
      simp only [Out.ok.injEq, true_and] at hg
      refine ⟨s1, f, built_congr (fun m => ?_) B, hn1, hf, hg.symm⟩
      exact exists_congr fun c => and_congr_right fun hc => (hk0 c hc).2.2 m

/-- `Fill`: set every scalar of a slice to the value of `v` -/
theorem exec_fill {v : Ptr} : ∀ (ps : List Ptr) (h h' : Heap T),
    exec (ps.map fun p => Op.asg p (.set v)) h = .ok () h' →
    (∀ p ∈ ps, h'.val p = h.val v) ∧ (∀ q, q ∉ ps → h'.val q = h.val q) ∧ h'.next = h.next ∧ h'.val v = h.val v := by
  intro ps
  induction ps with
  | nil =>
    intro h h' he
    simp only [List.map_nil, exec, Out.ok.injEq, true_and] at he
    subst he
    simp
  | cons p ps ih =>
    intro h h' he
    simp only [List.map_cons, exec, Op.cal, Rhs.eval, Heap.load] at he
    by_cases hv : v = 0
    · simp [hv] at he
    by_cases hp : p = 0
    · simp [hv, Heap.store, hp] at he
    simp only [hv, if_false, Heap.store, hp, Out.bind_ok] at he
    obtain ⟨h1, h2, h3, h4⟩ := ih _ _ he
    have hpv : (h.put p (h.val v)).val v = h.val v := by
      simp only [Heap.put]; split <;> rfl
    rw [hpv] at h1 h4
    refine ⟨fun q hq => ?_, fun q hq => ?_, h3, h4⟩
    · by_cases hqs : q ∈ ps
      · exact h1 q hqs
      · have : q = p := by simpa [hqs] using hq
        rw [h2 q hqs, this]; simp [Heap.put]
    · have h5 : q ≠ p ∧ q ∉ ps := by simpa using hq
      rw [h2 q h5.2]; simp [Heap.put, h5.1]

theorem exec_fill_total {v : Ptr} (hv : 0 < v) : ∀ (ps : List Ptr) (h : Heap T), (∀ p ∈ ps, 0 < p) →
    ∃ h', exec (ps.map fun p => Op.asg p (.set v)) h = .ok () h' := by
  intro ps
  induction ps with
  | nil => intro h _; exact ⟨h, rfl⟩
  | cons p ps ih =>
    intro h hp
    obtain ⟨h', h1⟩ := ih (h.put p (h.val v)) (fun q hq => hp q (by simp [hq]))
    have hp0 := hp p (by simp)
    refine ⟨h', ?_⟩
    simp only [List.map_cons, exec, Op.cal, Rhs.eval, Heap.load, Heap.store]
    rw [if_neg (by omega)]
    simp only
    rw [if_neg (by omega)]
    exact h1

/-- `Transfer`: set the scalars `ts` to the values of `fs`, one by one -/
theorem exec_copy : ∀ (ts fs : List Ptr) (h h' : Heap T), ts.length = fs.length → ts.Nodup →
    (∀ p ∈ ts, p ∉ fs) → exec (Fin.copyLoop ts fs) h = .ok () h' →
    ts.map h'.val = fs.map h.val ∧ (∀ q, q ∉ ts → h'.val q = h.val q) ∧ h'.next = h.next := by
  intro ts
  induction ts with
  | nil =>
    intro fs h h' hl _ _ he
    cases fs with
    | cons f fs => simp at hl
    | nil =>
      simp only [Fin.copyLoop, exec, Out.ok.injEq, true_and] at he
      subst he; simp
  | cons t ts ih =>
    intro fs h h' hl hnd hdis he
    cases fs with
    | nil => simp at hl
    | cons f fs =>
      simp only [Fin.copyLoop, exec, Op.cal, Rhs.eval, Heap.load] at he
      by_cases hf : f = 0
      · simp [hf] at he
      by_cases ht : t = 0
      · simp [hf, Heap.store, ht] at he
      simp only [hf, if_false, Heap.store, ht, Out.bind_ok] at he
      simp only [List.nodup_cons] at hnd
      obtain ⟨h1, h2, h3⟩ := ih fs _ _ (by simpa using hl) hnd.2
        (fun p hp hq => hdis p (by simp [hp]) (by simp [hq])) he
      have hft : ∀ q ∈ fs, q ≠ t := fun q hq hqt => hdis t (by simp) (by simp [← hqt, hq])
      refine ⟨?_, fun q hq => ?_, h3⟩
      · rw [List.map_cons, List.map_cons, h1, h2 t hnd.1]
        congr 1
        · simp [Heap.put]
        · exact List.map_congr_left fun q hq => by simp [Heap.put, hft q hq]
      · have h5 : q ≠ t ∧ q ∉ ts := by simpa using hq
        rw [h2 q h5.2]; simp [Heap.put, h5.1]

end Godeep
