import Verif.Lemmas.LossBuild
/-
  What the operations for the output error and the loss compute.
-/
set_option linter.unusedSectionVars false

namespace Godeep
open Spec GoNum

variable {T : Type} [GoNum T]

/-- `d = t - o` for each output -/
def subOps (dM tM oM : Mat) (n : Nat) : List (Op T) :=
  (List.range n).map fun i => .asg (dM.ops.getD i 0) (.sub (tM.ops.getD i 0) (oM.ops.getD i 0))

/-- the tensors the output error is computed from -/
structure CIn (dM tM oM : Mat) (n lo : Nat) : Prop where
  pos : 0 < n
  size : size dM.shape = n
  len : dM.ops.length = n ∧ tM.ops.length = n ∧ oM.ops.length = n
  nodup : dM.ops.Nodup
  sep : ∀ q ∈ dM.ops, q ∉ tM.ops ∧ q ∉ oM.ops
  dlt : ∀ q ∈ dM.ops, 0 < q ∧ q < lo
  tlt : ∀ q ∈ tM.ops, 0 < q ∧ q < lo
  olt : ∀ q ∈ oM.ops, 0 < q ∧ q < lo

theorem getD_mem' {l : List Ptr} {i : Nat} (hi : i < l.length) : l.getD i 0 ∈ l := by
  rw [List.getD_eq_getElem _ _ hi]; exact List.getElem_mem hi

theorem mem_subOps {dM tM oM : Mat} {n : Nat} {o : Op T} (h : o ∈ subOps dM tM oM n) :
    ∃ i < n, o = .asg (dM.ops.getD i 0) (.sub (tM.ops.getD i 0) (oM.ops.getD i 0)) := by
  obtain ⟨i, hi, rfl⟩ := List.mem_map.1 h
  exact ⟨i, List.mem_range.1 hi, rfl⟩

theorem CIn.subs {dM tM oM : Mat} {n lo : Nat} (C : CIn dM tM oM n lo) : SSA1 (subOps (T := T) dM tM oM n) ∧
    (∀ q ∈ dsts (subOps (T := T) dM tM oM n), q ∈ dM.ops) ∧
    (∀ o ∈ subOps (T := T) dM tM oM n, ∀ q ∈ o.reads, q ∈ tM.ops ∨ q ∈ oM.ops) := by
  obtain ⟨l1, l2, l3⟩ := C.len
  refine ⟨List.pairwise_map.2 (List.pairwise_lt_range.imp_of_mem fun {a b} ha hb hab => ?_), fun q hq => ?_, fun o ho q hq => ?_⟩
  · rw [List.mem_range] at ha hb
    intro q hq
    cases hq
    refine ⟨fun h => ?_, fun h => ?_⟩
    · simp only [Op.dst, Option.some.injEq] at h
      rw [List.getD_eq_getElem _ _ (by omega), List.getD_eq_getElem _ _ (by omega)] at h
      have := (C.nodup.getElem_inj_iff).1 h
      omega
    · simp only [Op.reads, Rhs.reads, List.mem_cons, List.not_mem_nil, or_false] at h
      have := C.sep _ (getD_mem' (l := dM.ops) (i := b) (by omega))
      rcases h with h | h
      · rw [h] at this; exact this.1 (getD_mem' (by omega))
      · rw [h] at this; exact this.2 (getD_mem' (by omega))
  · rw [mem_dsts] at hq
    obtain ⟨r, hr⟩ := hq
    obtain ⟨i, hi, e⟩ := mem_subOps hr
    cases e
    exact getD_mem' (by omega)
  · obtain ⟨i, hi, rfl⟩ := mem_subOps ho
    simp only [Op.reads, Rhs.reads, List.mem_cons, List.not_mem_nil, or_false] at hq
    rcases hq with rfl | rfl
    · exact Or.inl (getD_mem' (by omega))
    · exact Or.inr (getD_mem' (by omega))

theorem lossOps_facts {dM : Mat} {n lo : Nat} (hs : size dM.shape = n) (hl : dM.ops.length = n) (hd : ∀ q ∈ dM.ops, 0 < q ∧ q < lo) :
    SSA1 (lossOps (T := T) lo dM) ∧ (∀ q ∈ dsts (lossOps (T := T) lo dM), lo ≤ q ∧ q < lo + n + 1) ∧
    (∀ o ∈ lossOps (T := T) lo dM, ∀ q ∈ o.reads, q ∈ dM.ops ∨ (lo ≤ q ∧ q < lo + n)) := by
  unfold lossOps
  rw [hs]
  have ha : ∀ o ∈ asgs lo ((List.range n).map fun i => (Rhs.abs (dM.ops.getD i 0) : Rhs T)), ∀ q ∈ o.reads, q ∈ dM.ops := by
    intro o ho q hq
    obtain ⟨i, r, h1, rfl⟩ := of_mem_asgs ho
    obtain ⟨j, hj, rfl⟩ := List.mem_map.1 (List.mem_of_getElem? h1)
    simp only [Op.reads, Rhs.reads, List.mem_singleton] at hq
    rw [hq]; exact getD_mem' (by rw [hl]; exact List.mem_range.1 hj)
  refine ⟨ssa1_append (asgs_ssa1 ?_) (ssa1_one _) ?_ ?_, ?_, ?_⟩
  · intro r hr q hq
    obtain ⟨j, hj, rfl⟩ := List.mem_map.1 hr
    simp only [Rhs.reads, List.mem_singleton] at hq
    rw [hq]; exact (hd _ (getD_mem' (by rw [hl]; exact List.mem_range.1 hj))).2
  · intro q hq h
    simp only [dsts_asg, dsts_nil, List.mem_singleton] at hq
    rw [mem_dsts_asgs] at h
    simp at h; omega
  · intro q hq o ho hr
    simp only [dsts_asg, dsts_nil, List.mem_singleton] at hq
    have := (hd q (ha o ho q hr)).2
    omega
  · intro q hq
    rw [dsts_append, List.mem_append, mem_dsts_asgs] at hq
    simp only [dsts_asg, dsts_nil, List.mem_singleton, List.length_map, List.length_range] at hq
    omega
  · intro o ho q hq
    rcases List.mem_append.1 ho with ho | ho
    · exact Or.inl (ha o ho q hq)
    · rw [List.mem_singleton] at ho; subst ho
      simp only [Op.reads, Rhs.reads, List.mem_range'_1] at hq
      exact Or.inr hq

/-- the operations for the output error and the loss -/
structure CDone (dM tM oM : Mat) (n lo : Nat) (cd : List (Op T)) : Prop where
  fine : ∀ o ∈ cd, Fine o
  dst : ∀ q ∈ dsts cd, q ∈ dM.ops ∨ (lo ≤ q ∧ q < lo + n + 1)
  run : ∀ h h', exec cd h = .ok () h' →
    (∀ i < n, h'.val (dM.ops.getD i 0) = GoNum.sub (h.val (tM.ops.getD i 0)) (h.val (oM.ops.getD i 0))) ∧
    h'.val (lo + n) = sum1 ((List.range n).map fun i =>
      let e := GoNum.sub (h.val (tM.ops.getD i 0)) (h.val (oM.ops.getD i 0))
      if lt e zero then GoNum.neg e else e)

theorem CIn.done {dM tM oM : Mat} {n lo : Nat} (C : CIn dM tM oM n lo) {na nb : List (Op T)} (ha : AllNop na) (hb : AllNop nb) :
    CDone dM tM oM n lo (na ++ (subOps dM tM oM n ++ (nb ++ lossOps lo dM))) := by
  obtain ⟨l1, l2, l3⟩ := C.len
  obtain ⟨s1, s2, s3⟩ := C.subs (T := T)
  obtain ⟨t1, t2, t3⟩ := lossOps_facts (T := T) C.size l1 C.dlt
  have hdst : ∀ q ∈ dsts (na ++ (subOps dM tM oM n ++ (nb ++ lossOps lo dM)) : List (Op T)),
      q ∈ dM.ops ∨ (lo ≤ q ∧ q < lo + n + 1) := by
    intro q hq
    rw [dsts_append, dsts_append, dsts_append, ha.dsts, hb.dsts, List.nil_append, List.nil_append, List.mem_append] at hq
    rcases hq with hq | hq
    · exact Or.inl (s2 q hq)
    · exact Or.inr (t2 q hq)
  have hssa : SSA1 (na ++ (subOps dM tM oM n ++ (nb ++ lossOps lo dM)) : List (Op T)) := by
    refine ssa1_append ha.ssa1 (ssa1_append s1 (ssa1_append hb.ssa1 t1 ?_ ?_) ?_ ?_) ?_ ?_
    · intro q _ h; rw [hb.dsts] at h; cases h
    · intro q _ o ho h; rw [hb.reads o ho] at h; cases h
    · intro q hq h
      rw [dsts_append, hb.dsts, List.nil_append] at hq
      have := (C.dlt q (s2 q h)).2
      have := (t2 q hq).1
      omega
    · intro q hq o ho h
      rw [dsts_append, hb.dsts, List.nil_append] at hq
      have := (t2 q hq).1
      rcases s3 o ho q h with h | h
      · have := (C.tlt q h).2; omega
      · have := (C.olt q h).2; omega
    · intro q _ h; rw [ha.dsts] at h; cases h
    · intro q _ o ho h; rw [ha.reads o ho] at h; cases h
  refine ⟨fun o ho => ?_, hdst, fun h h' he => ?_⟩
  · rcases List.mem_append.1 ho with ho | ho
    · exact ha.fine o ho
    rcases List.mem_append.1 ho with ho | ho
    · obtain ⟨i, hi, rfl⟩ := mem_subOps ho
      refine ⟨(C.dlt _ (getD_mem' (by omega))).1, fun q hq => ?_, trivial, trivial⟩
      simp only [Rhs.reads, List.mem_cons, List.not_mem_nil, or_false] at hq
      rcases hq with rfl | rfl
      · exact (C.tlt _ (getD_mem' (by omega))).1
      · exact (C.olt _ (getD_mem' (by omega))).1
    rcases List.mem_append.1 ho with ho | ho
    · exact hb.fine o ho
    have hlo : 0 < lo := by
      have := C.dlt _ (getD_mem' (l := dM.ops) (i := 0) (by have := C.pos; omega)); omega
    unfold lossOps at ho
    rw [C.size] at ho
    rcases List.mem_append.1 ho with ho | ho
    · obtain ⟨i, r, h1, rfl⟩ := of_mem_asgs ho
      obtain ⟨j, hj, rfl⟩ := List.mem_map.1 (List.mem_of_getElem? h1)
      refine ⟨by omega, fun q hq => ?_, trivial, trivial⟩
      simp only [Rhs.reads, List.mem_singleton] at hq
      rw [hq]; exact (C.dlt _ (getD_mem' (by rw [l1]; exact List.mem_range.1 hj))).1
    · rw [List.mem_singleton] at ho; subst ho
      refine ⟨by omega, fun q hq => ?_, ?_, trivial⟩
      · simp only [Rhs.reads, List.mem_range'_1] at hq; omega
      · have := C.pos
        show List.range' lo n ≠ []
        simp; omega
  · have S := exec_ssa1 hssa he
    have F := (exec_frame he).2
    have keep : ∀ q, q ∉ dM.ops → q < lo → h'.val q = h.val q := fun q h1 h2 => F q fun hd => by
      rcases hdst q hd with h | h
      · exact h1 h
      · omega
    have e1 : ∀ i < n, h'.val (dM.ops.getD i 0) = GoNum.sub (h.val (tM.ops.getD i 0)) (h.val (oM.ops.getD i 0)) := by
      intro i hi
      have hd := getD_mem' (l := dM.ops) (i := i) (by omega)
      have ht := getD_mem' (l := tM.ops) (i := i) (by omega)
      have ho := getD_mem' (l := oM.ops) (i := i) (by omega)
      have := C.sep _ hd
      rw [S.sub' (p := dM.ops.getD i 0) (a := tM.ops.getD i 0) (b := oM.ops.getD i 0) ?_ ⟨fun e => this.1 (e ▸ ht), fun e => this.2 (e ▸ ho)⟩,
        keep _ (fun h => (C.sep _ h).1 ht) (C.tlt _ ht).2, keep _ (fun h => (C.sep _ h).2 ho) (C.olt _ ho).2]
      exact List.mem_append_right _ (List.mem_append_left _ (List.mem_map.2 ⟨i, List.mem_range.2 hi, rfl⟩))
    refine ⟨e1, ?_⟩
    have hin : ∀ o ∈ lossOps (T := T) lo dM, o ∈ na ++ (subOps dM tM oM n ++ (nb ++ lossOps lo dM)) := fun o ho =>
      List.mem_append_right _ (List.mem_append_right _ (List.mem_append_right _ ho))
    rw [S.sum (p := lo + n) (args := List.range' lo n) (hin _ (by unfold lossOps; rw [C.size]; simp)) (by simp)]
    congr 1
    rw [List.range'_eq_map_range, List.map_map]
    refine List.map_congr_left fun i hi => ?_
    rw [List.mem_range] at hi
    have hd := C.dlt _ (getD_mem' (l := dM.ops) (i := i) (by omega))
    show h'.val (lo + i) = _
    rw [S.absv (p := lo + i) (a := dM.ops.getD i 0) (hin _ ?_) (by omega), e1 i hi]
    unfold lossOps
    rw [C.size]
    refine List.mem_append_left _ (mem_asgs ?_)
    simp [hi]

end Godeep
