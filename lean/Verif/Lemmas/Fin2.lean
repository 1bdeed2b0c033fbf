import Verif.Lemmas.Fin
/-
  `BuildGraph` of SoftMax, Transpose, SubTensor, Reshape, Concat and Dot.
-/
set_option linter.unusedSectionVars false

namespace Godeep
open Spec GoNum

variable {T : Type} [GoNum T] {get : Nat → Mat} {s : FSt T}

theorem dsts_map_asg (ps : List Ptr) (r : Ptr → Rhs T) :
    dsts (ps.map fun p => Op.asg p (r p)) = ps := by
  induction ps with
  | nil => rfl
  | cons p ps ih => rw [List.map_cons, dsts_asg, ih]

theorem fin_softMax {t : Nat} (hpos : 0 < s.heap.next) (gt : GoodMat s.heap (get t)) :
    ∃ s', Fin.run get (.softMax t) s = .ok () s' ∧ FinOK (.softMax t) get s s' := by
  have hlt : (get t).getSize = size (get t).shape := gt.len
  have hlen := gt.len
  generalize hlo : s.heap.next = lo at hpos
  generalize hn : size (get t).shape = n at hlt hlen
  set sub := fun i => (Rhs.sub ((get t).ops.getD i 0) lo : Rhs T) with hsub
  set m : Mat := ⟨(get t).shape, (get t).mul, List.range' (lo + 1) n⟩ with hmd
  have hm2 : m.ops = List.range' (lo + 1) n := rfl
  set A := asgs lo [Rhs.min (get t).ops] ++ asgs (lo + 1) ((List.range n).map sub) ++
    asgs (lo + 1 + n) [Rhs.sum (List.range' (lo + 1) n)] with hA
  set D := (List.range' (lo + 1) n).map (fun p => (Op.asg p (.div p (lo + 1 + n)) : Op T)) with hD
  have hget : ∀ i, i < n → (get t).ops[i]? = some ((get t).ops.getD i 0) := by
    intro i hi
    have : i < (get t).ops.length := by omega
    simp [List.getD, this]
  have hval : ∀ i, i < n → Valid s.heap ((get t).ops.getD i 0) := fun i hi =>
    gt.valid _ (List.mem_of_getElem? (hget i hi))
  refine ⟨⟨allocZ (n + 2) s.heap, s.ctx ++ (A ++ D), m⟩, ?_, extends_allocZ _ _, ?_, allocZ_val _ _, _, rfl, ?_, ?_, ?_, ?_, ?_⟩
  · simp only [Fin.run, Fin.softMax, hlt, FSt.emit]
    rw [emitLoop_ok (r := sub)]
    · simp only [Out.bind_ok, List.length_range, List.nil_append, hlo]
      have h1 : (s.heap.alloc zero).2.next = lo + 1 := by simp [Heap.alloc, hlo]
      rw [h1]
      congr 1
      · simp only [FSt.mk.injEq]
        refine ⟨?_, ?_, rfl⟩
        · rw [allocZ_succ]
          have : ((allocZ (n + 1) s.heap).alloc zero).2 = allocZ 1 (allocZ (n + 1) s.heap) := by
            rw [← allocZ_succ 0, allocZ_zero]
          rw [this]
          unfold allocZ
          congr 1
          funext p
          simp only [hlo]
          split_ifs <;> first | rfl | omega
        · simp [hA, hD, asgs, List.append_assoc]
          exact ⟨h1, fun _ _ _ => h1⟩
    · intro i hi
      simp only [hsub, hlo, Res.index_eq (hget i (List.mem_range.1 hi)), Res.map_ok]
  · refine ⟨gt.mul, by rw [hm2]; simp [hmd, hn], fun p hp => ?_⟩
    rw [hm2, List.mem_range'_1] at hp
    refine ⟨by omega, ?_⟩
    simp only [allocZ_next]; omega
  · intro q hq
    simp only [hA, hD, dsts_append, List.mem_append, mem_dsts_asgs, List.length_map, List.length_range,
      List.length_cons, List.length_nil, dsts_map_asg, List.mem_range'_1] at hq
    simp only [allocZ_next]; omega
  · intro o ho q hq
    simp only [allocZ_next]
    simp only [hA, hD, List.mem_append] at ho
    rcases ho with ((ho | ho) | ho) | ho
    · simp only [asgs, List.mem_cons, List.not_mem_nil, or_false] at ho
      subst ho
      have := gt.valid q hq
      exact ⟨this.1, by have := this.2; omega⟩
    · obtain ⟨i, r, h1, rfl⟩ := of_mem_asgs ho
      rw [List.getElem?_map] at h1
      simp only [Option.map_eq_some_iff] at h1
      obtain ⟨j, hj, rfl⟩ := h1
      have hjn := List.mem_range.1 (List.mem_of_getElem? hj)
      simp only [Op.reads, hsub, Rhs.reads, List.mem_cons, List.not_mem_nil, or_false] at hq
      rcases hq with rfl | rfl
      · have := hval j hjn
        exact ⟨this.1, by have := this.2; omega⟩
      · omega
    · simp only [asgs, List.mem_cons, List.not_mem_nil, or_false] at ho
      subst ho
      simp only [Op.reads, Rhs.reads, List.mem_range'_1] at hq
      omega
    · obtain ⟨p, hp, rfl⟩ := List.mem_map.1 ho
      rw [List.mem_range'_1] at hp
      simp only [Op.reads, Rhs.reads, List.mem_cons, List.not_mem_nil, or_false] at hq
      omega
  · intro hne o ho
    have hn0 : n ≠ 0 := by rw [← hn]; exact hne
    simp only [hA, hD, List.mem_append] at ho
    rcases ho with ((ho | ho) | ho) | ho
    · simp only [asgs, List.mem_cons, List.not_mem_nil, or_false] at ho
      subst ho
      intro hc
      rw [hc] at hlen; simp at hlen; omega
    · obtain ⟨i, r, h1, rfl⟩ := of_mem_asgs ho
      rw [List.getElem?_map] at h1
      simp only [Option.map_eq_some_iff] at h1
      obtain ⟨j, hj, rfl⟩ := h1
      trivial
    · simp only [asgs, List.mem_cons, List.not_mem_nil, or_false] at ho
      subst ho
      intro hc
      have := congrArg List.length hc
      simp at this; omega
    · obtain ⟨p, hp, rfl⟩ := List.mem_map.1 ho
      trivial
  · intro hne
    have hn0 : n = 0 := by rw [← hn]; simpa [Kind.redOK] using hne
    refine ⟨.asg lo (.min (get t).ops), by simp [hA, asgs], ?_⟩
    simp only [ArgsNonempty, ne_eq, not_not]
    exact List.length_eq_zero_iff.1 (by omega)
  · intro h h' _ he u hu
    simp only [Kind.den, Option.some.injEq] at hu
    subst hu
    obtain ⟨h1, he1, he2⟩ := exec_append_ok.1 he
    have hssa : SSA A := by
      refine ssa_append (ssa_append (ssa_asgs (le_refl _) ?_) (ssa_asgs (le_refl _) ?_) ?_ ?_) (ssa_asgs (le_refl _) ?_) ?_ ?_
      · intro r hr q hq
        simp only [List.mem_cons, List.not_mem_nil, or_false] at hr
        subst hr
        have := (gt.valid q hq).2; omega
      · intro r hr q hq
        obtain ⟨j, hj, rfl⟩ := List.mem_map.1 hr
        simp only [hsub, Rhs.reads, List.mem_cons, List.not_mem_nil, or_false] at hq
        have := (hval j (List.mem_range.1 hj)).2
        rcases hq with rfl | rfl <;> omega
      · intro q hq hq2
        rw [mem_dsts_asgs] at hq hq2
        simp at hq hq2; omega
      · intro o ho q hq hq2
        simp only [asgs, List.mem_cons, List.not_mem_nil, or_false] at ho
        subst ho
        rw [mem_dsts_asgs] at hq
        have := (gt.valid q hq2).2; omega
      · intro r hr q hq
        simp only [List.mem_cons, List.not_mem_nil, or_false] at hr
        subst hr
        simp only [Rhs.reads, List.mem_range'_1] at hq; omega
      · intro q hq hq2
        simp only [dsts_append, List.mem_append, mem_dsts_asgs, List.length_map, List.length_range,
          List.length_cons, List.length_nil] at hq hq2
        omega
      · intro o ho q hq hq2
        rw [mem_dsts_asgs] at hq
        rw [List.mem_append] at ho
        rcases ho with ho | ho
        · simp only [asgs, List.mem_cons, List.not_mem_nil, or_false] at ho
          subst ho
          have := (gt.valid q hq2).2; simp at hq; omega
        · obtain ⟨i, r, h1, rfl⟩ := of_mem_asgs ho
          rw [List.getElem?_map] at h1
          simp only [Option.map_eq_some_iff] at h1
          obtain ⟨j, hj, rfl⟩ := h1
          have hjn := (hval j (List.mem_range.1 (List.mem_of_getElem? hj))).2
          simp only [Op.reads, hsub, Rhs.reads, List.mem_cons, List.not_mem_nil, or_false] at hq2
          simp at hq
          rcases hq2 with rfl | rfl <;> omega
    have hsat := exec_ssa hssa he1
    rw [hA, sat_append, sat_append] at hsat
    obtain ⟨⟨s1, s2⟩, s3⟩ := hsat
    have hmin := red_eval (o := .min) (s1 lo _ (by simp [asgs]; rfl))
    have hsubs : ∀ k, k < n → h1.val (lo + 1 + k) = GoNum.sub (h1.val ((get t).ops.getD k 0)) (h1.val lo) := by
      intro k hk
      exact arith_eval (o := .sub) (s2 _ _ (mem_asgs (i := k) (r := sub k) (by
        rw [List.getElem?_map, List.getElem?_range hk]; rfl)))
    have hsum := sum_eval (s3 (lo + 1 + n) _ (by simp [asgs]; rfl))
    have hdiv := exec_inplace (List.nodup_range') (by rw [List.mem_range'_1]; omega) he2
    have hfr : ∀ q, q < lo → h'.val q = h1.val q := by
      intro q hq
      refine (exec_frame he2).2 q ?_
      rw [hD, dsts_map_asg, List.mem_range'_1]; omega
    have hops : (get t).ops.map h1.val = (ofMat h'.val (get t)).flat := by
      rw [ofMat_flat gt]
      exact (List.map_congr_left fun p hp => hfr p (by have := (gt.valid p hp).2; omega)).symm
    have hmn : h1.val lo = min1 (ofMat h'.val (get t)).flat := by rw [hmin, hops]; rfl
    have hrange : (List.range' (lo + 1) n).map h1.val =
        (ofMat h'.val (get t)).flat.map fun w => GoNum.sub w (min1 (ofMat h'.val (get t)).flat) := by
      have : ((ofMat h'.val (get t)).map fun w => GoNum.sub w (min1 (ofMat h'.val (get t)).flat)).flat =
          (ofMat h'.val (get t)).flat.map fun w => GoNum.sub w (min1 (ofMat h'.val (get t)).flat) := by
        simp [STensor.flat, STensor.map]
      rw [← this]
      refine range'_map_val (by simp [STensor.map, hn]) fun k hk => ?_
      rw [hsubs k hk, hmn]
      obtain ⟨p, hp1, hp3, hp2⟩ := good_at gt (k := k) (by omega)
      simp only [STensor.map, ofMat_shape]
      rw [← hp2, hfr p (by have := (gt.valid p hp3).2; omega)]
      simp [List.getD, hp1]
    refine ⟨rfl, ?_⟩
    rw [hm2]
    refine range'_map_val (by simp [shiftNorm1, STensor.map, hn]) fun k hk => ?_
    rw [hdiv _ (by rw [List.mem_range'_1]; omega), hsum, hrange, hsubs k hk, hmn]
    obtain ⟨p, hp1, hp3, hp2⟩ := good_at gt (k := k) (by omega)
    simp only [shiftNorm1, STensor.map, ofMat_shape]
    rw [← hp2, hfr p (by have := (gt.valid p hp3).2; omega)]
    simp [List.getD, hp1]

/-! ### views -/

theorem pickLoop_pure {f : Nat → Heap T → Res (Ptr × Heap T)} {p : Nat → Ptr} :
    ∀ (l : List Nat) (acc : List Ptr) (s : FSt T), (∀ i ∈ l, f i s.heap = .ok (p i, s.heap)) →
      FSt.pickLoop f l acc s = .ok () { s with mat := { s.mat with ops := acc ++ l.map p } } := by
  intro l
  induction l with
  | nil => intro acc s _; simp [FSt.pickLoop]
  | cons i l ih =>
    intro acc s hf
    simp only [FSt.pickLoop, hf i (by simp)]
    rw [ih _ _ (fun j hj => hf j (by simp [hj]))]
    simp

theorem pickLoop_fresh {f : Nat → Heap T → Res (Ptr × Heap T)} :
    ∀ (l : List Nat) (acc : List Ptr) (s : FSt T), (∀ i ∈ l, ∀ h, f i h = .ok (h.next, (h.alloc zero).2)) →
      FSt.pickLoop f l acc s = .ok () { s with
        heap := allocZ l.length s.heap
        mat := { s.mat with ops := acc ++ List.range' s.heap.next l.length } } := by
  intro l
  induction l with
  | nil => intro acc s _; simp [FSt.pickLoop, allocZ_zero]
  | cons i l ih =>
    intro acc s hf
    simp only [FSt.pickLoop, hf i (by simp)]
    rw [ih _ _ (fun j hj => hf j (by simp [hj]))]
    simp only [allocZ_succ, List.length_cons, List.range'_succ]
    simp [Heap.alloc]

/-- tensors whose cells are cells of others: nothing to execute -/
theorem finOK_view {k : Kind T} {get : Nat → Mat} {s : FSt T} {shape : List Nat} {ops : List Ptr}
    (hl : ops.length = size shape) (hv : ∀ p ∈ ops, Valid s.heap p)
    (hrk : k.redOK fun c => (get c).shape)
    (hsem : ∀ val : Ptr → T, Sem k get ⟨shape, indexMul shape, ops⟩ val) :
    FinOK k get s { s with mat := ⟨shape, indexMul shape, ops⟩ } := by
  refine ⟨Extends.refl _, ⟨rfl, hl, hv⟩, fun q h1 h2 => absurd h2 (by simp only; omega), [], (List.append_nil _).symm, ?_, ?_, ?_, fun hn => absurd hrk hn, ?_⟩
  · intro q hq; simp at hq
  · intro o ho; simp at ho
  · intro _ o ho; simp at ho
  · intro h h' _ _; exact hsem _

theorem map_range_val {t : STensor T} {n : Nat} {p : Nat → Ptr} {val : Ptr → T} (hn : n = size t.shape)
    (hv : ∀ k, k < n → val (p k) = t.get (unflat t.shape k)) :
    ((List.range n).map p).map val = t.flat := by
  rw [flat_eq_range, ← hn, List.map_map]
  apply List.map_congr_left
  intro k hk
  exact hv k (List.mem_range.1 hk)

theorem fin_transpose {t : Nat} (gt : GoodMat s.heap (get t)) :
    ∃ s', Fin.run get (.transpose t) s = .ok () s' ∧ FinOK (.transpose t) get s s' := by
  have hsz : (get t).getSize = size (get t).shape.reverse := by rw [size_reverse]; exact gt.len
  have key : ∀ i, i < size (get t).shape.reverse → ∃ p, p ∈ (get t).ops ∧
      (reverseIndex (indexMul (get t).shape.reverse) (get t).shape.reverse i).bind (fun idx =>
        (get t).getOperand (invertedIndex idx)) = .ok p ∧
      ∀ val : Ptr → T, val p = (ofMat val (get t)).get (unflat (get t).shape.reverse i).reverse := by
    intro i hi
    have hr := unflat_inRange hi
    have hr' : InRange (get t).shape (unflat (get t).shape.reverse i).reverse := by
      rw [← inRange_reverse]; simpa using hr
    obtain ⟨p, hp1, hp2, hp3⟩ := good_operand gt hr'
    refine ⟨p, hp2, ?_, hp3⟩
    rw [indexMul_eq, reverseIndex_unflat hi, Res.bind_ok, invertedIndex_eq, hp1]
  choose! p hp1 hp2 hp3 using key
  refine ⟨{ s with mat := ⟨(get t).shape.reverse, indexMul (get t).shape.reverse,
    (List.range (size (get t).shape.reverse)).map p⟩ }, ?_, finOK_view (by simp) ?_ trivial ?_⟩
  · simp only [Fin.run, Fin.transpose, hsz]
    rw [pickLoop_pure (p := p)]
    · simp
    · intro i hi
      have := hp2 i (List.mem_range.1 hi)
      obtain ⟨idx, hi1, hi2⟩ := res_bind_ok this
      simp only [hi1, Res.bind_ok, hi2, Res.map_ok]
  · intro q hq
    obtain ⟨i, hi, rfl⟩ := List.mem_map.1 hq
    exact gt.valid _ (hp1 i (List.mem_range.1 hi))
  · intro val u hu
    simp only [Kind.den, Option.some.injEq] at hu
    subst hu
    exact ⟨rfl, map_range_val rfl fun k hk => hp3 k hk val⟩

theorem finOK_pad {k : Kind T} {get : Nat → Mat} {s : FSt T} {shape : List Nat} {ops : List Ptr} {n : Nat}
    (hpos : 0 < s.heap.next) (hrk : k.redOK fun c => (get c).shape)
    (hl : ops.length + n = size shape) (hv : ∀ p ∈ ops, Valid s.heap p)
    (hsem : ∀ val : Ptr → T, (∀ q, s.heap.next ≤ q → q < s.heap.next + n → val q = zero) →
      Sem k get ⟨shape, indexMul shape, ops ++ List.range' s.heap.next n⟩ val) :
    FinOK k get s { s with
      heap := allocZ n s.heap
      mat := ⟨shape, indexMul shape, ops ++ List.range' s.heap.next n⟩ } := by
  refine ⟨extends_allocZ _ _, ⟨rfl, by simpa using hl, ?_⟩, allocZ_val _ _, [], (List.append_nil _).symm, ?_, ?_, ?_, fun hn => absurd hrk hn, ?_⟩
  · intro p hp
    rcases List.mem_append.1 hp with hp | hp
    · exact (hv p hp).mono (extends_allocZ _ _)
    · rw [List.mem_range'_1] at hp
      exact ⟨by omega, by simpa using hp.2⟩
  · intro q hq; simp at hq
  · intro o ho; simp at ho
  · intro _ o ho; simp at ho
  · intro h h' hz he
    simp only [exec, Out.ok.injEq, true_and] at he
    subst he
    exact hsem _ (fun q h1 h2 => hz q h1 h2 (by simp))

theorem fin_reshape {t : Nat} (hpos : 0 < s.heap.next) (gt : GoodMat s.heap (get t)) :
    ∃ s', Fin.run get (.reshape t) s = .ok () s' ∧ FinOK (.reshape t) get s s' := by
  generalize hmin : (if dataSize s.mat.shape > (get t).getSize then (get t).getSize
    else dataSize s.mat.shape) = mn
  have hmn1 : mn ≤ size s.mat.shape ∧ mn ≤ (get t).ops.length ∧
      (mn < size s.mat.shape → mn = (get t).ops.length) := by
    rw [← hmin, dataSize_eq, Mat.getSize]; split <;> omega
  refine ⟨{ s with
    heap := allocZ (size s.mat.shape - mn) s.heap
    mat := ⟨s.mat.shape, indexMul s.mat.shape, (get t).ops.take mn ++
      List.range' s.heap.next (size s.mat.shape - mn)⟩ }, ?_, finOK_pad hpos trivial ?_ ?_ ?_⟩
  · simp only [Fin.run, Fin.reshape, zeros_eq, hmin]
    rw [dataSize_eq]
  · simp only [List.length_take]; omega
  · intro p hp; exact gt.valid p (List.mem_of_mem_take hp)
  · intro val hz u hu
    simp only [Kind.den, Option.some.injEq] at hu
    subst hu
    refine ⟨rfl, ?_⟩
    rw [STensor.reshape, ofValues_flat, ofMat_flat gt]
    apply List.ext_getElem?
    intro k
    rw [List.getElem?_map, List.getElem?_map]
    by_cases hk : k < size s.mat.shape
    · rw [List.getElem?_range hk]
      by_cases hk2 : k < mn
      · rw [List.getElem?_append_left (by simp; omega), List.getElem?_take, if_pos hk2]
        have : k < (get t).ops.length := by omega
        simp [List.getD, this]
      · have hlt : (List.take mn (get t).ops).length = mn := by simp; omega
        rw [List.getElem?_append_right (by omega), hlt, List.getElem?_range' (by omega)]
        simp only [Option.map_some, Option.some.injEq, Nat.one_mul]
        rw [hz _ (by omega) (by omega)]
        have : (get t).ops.length ≤ k := by omega
        simp [List.getD, this]
    · rw [List.getElem?_eq_none (by simp; omega), List.getElem?_eq_none (by simpa using hk)]; rfl

/-- `SubTensor` without padding, or beyond the tensor with padding only -/
theorem fin_sub {d st en : Nat} {g : Bool} {t : Nat} (hpos : 0 < s.heap.next)
    (gt : GoodMat s.heap (get t)) (hd : d < (get t).shape.length) (hse : st < en)
    (hr : en ≤ (get t).shape.getD d 0 ∨ g = true ∧ ((get t).shape.getD d 0 < st ∨
      size ((get t).shape.set d (en - st)) = 0)) :
    ∃ s', Fin.run get (.sub d st en g t) s = .ok () s' ∧ FinOK (.sub d st en g t) get s s' := by
  generalize hm : (get t).shape.getD d 0 = m at hr
  generalize hshape : (get t).shape.set d (en - st) = shape at hr
  have hrun : Fin.run get (.sub d st en g t) s = FSt.pickLoop (fun i h =>
      (reverseIndex (indexMul shape) shape i).bind fun idx => (Mat.bump idx d st).bind fun idx =>
        if idx.getD d 0 > m ∧ g then .ok (h.next, (h.alloc zero).2)
        else ((get t).getOperand idx).map fun p => (p, h))
      (List.range (size shape)) [] { s with mat := ⟨shape, indexMul shape, []⟩ } := by
    simp only [Fin.run, Fin.sub]
    rw [if_neg (by omega), if_neg (by omega), if_neg, if_neg, hm, hshape, dataSize_eq]
    · rw [hm]; rintro ⟨h1, h2⟩
      rcases hr with hr | ⟨hr, -⟩
      · omega
      · simp [hr] at h1
    · rw [hm]; rintro ⟨h1, h2⟩
      rcases hr with hr | ⟨hr, -⟩
      · omega
      · simp [hr] at h1
  rw [hrun]
  have helim : ∀ i, i < size shape → ∃ v, (unflat shape i)[d]? = some v ∧
      (unflat shape i).getD d 0 = v ∧ v < en - st ∧
      ∀ w, w < m → InRange (get t).shape ((unflat shape i).set d w) := by
    intro i hi
    have := unflat_inRange hi
    rw [← hshape] at this ⊢
    rw [← hm]
    exact inRange_set_elim hd this
  have hgetset : ∀ (l : List Nat) (v w : Nat), l[d]? = some v → (l.set d w).getD d 0 = w := by
    intro l v w hv
    have : d < l.length := (List.getElem?_eq_some_iff.1 hv).1
    simp [List.getD, this]
  by_cases hcase : en ≤ m
  · have key : ∀ i, i < size shape → ∃ p v, p ∈ (get t).ops ∧ (unflat shape i)[d]? = some v ∧ v + st < m ∧
        (get t).getOperand ((unflat shape i).set d (v + st)) = .ok p ∧
        ∀ val : Ptr → T, val p = (ofMat val (get t)).get ((unflat shape i).set d (v + st)) := by
      intro i hi
      obtain ⟨v, h1, h2, h3, h4⟩ := helim i hi
      obtain ⟨p, hp1, hp2, hp3⟩ := good_operand gt (h4 (v + st) (by omega))
      exact ⟨p, v, hp2, h1, by omega, hp1, hp3⟩
    choose! p v k1 k2 k3 k4 k5 using key
    refine ⟨{ s with mat := ⟨shape, indexMul shape, (List.range (size shape)).map p⟩ }, ?_,
      finOK_view (by simp) ?_ trivial ?_⟩
    · rw [pickLoop_pure (p := p)]
      · simp
      · intro i hi
        have hi' := List.mem_range.1 hi
        rw [indexMul_eq, reverseIndex_unflat hi', Res.bind_ok, bump_ok (k2 i hi'), Res.bind_ok,
          hgetset _ _ _ (k2 i hi'), if_neg (by have := k3 i hi'; omega), k4 i hi', Res.map_ok]
    · intro q hq
      obtain ⟨i, hi, rfl⟩ := List.mem_map.1 hq
      exact gt.valid _ (k1 i (List.mem_range.1 hi))
    · intro val u hu
      simp only [Kind.den, ofMat_shape] at hu
      split at hu
      · rw [Option.some.injEq] at hu
        subst hu
        have hsh : ∀ fl : T, ((ofMat val (get t)).slabFill d st en fl).shape = shape := fun _ => by
          simp [STensor.slabFill, hshape]
        have hsh2 : ((ofMat val (get t)).slab d st en).shape = shape := by simp [STensor.slab, hshape]
        cases g
        · simp only [Bool.false_eq_true, if_false]
          refine ⟨hsh2.symm, map_range_val (by rw [hsh2]) fun k hk => ?_⟩
          rw [hsh2, k5 k hk val]
          simp only [STensor.slab]
          rw [modify_eq_set _ (k2 k hk)]
        · simp only [if_true]
          refine ⟨(hsh _).symm, map_range_val (by rw [hsh]) fun k hk => ?_⟩
          rw [hsh, k5 k hk val]
          simp only [STensor.slabFill, ofMat_shape, hm]
          have hg : (unflat shape k).getD d 0 = v k := by simp [List.getD, k2 k hk]
          rw [hg, if_pos (k3 k hk), modify_eq_set _ (k2 k hk)]
      · simp at hu
  · have hg : g = true := by rcases hr with hr | hr; · omega
                             · exact hr.1
    have hlt : 0 < size shape → m < st := by
      intro h0
      rcases hr with hr | ⟨-, hr | hr⟩ <;> omega
    refine ⟨{ s with
      heap := allocZ (size shape) s.heap
      mat := ⟨shape, indexMul shape, [] ++ List.range' s.heap.next (size shape)⟩ }, ?_,
      finOK_pad hpos trivial (by simp) (by simp) ?_⟩
    · rw [pickLoop_fresh]
      · simp
      · intro i hi h
        have hi' := List.mem_range.1 hi
        have := hlt (by omega)
        obtain ⟨v, h1, h2, h3, h4⟩ := helim i hi'
        rw [indexMul_eq, reverseIndex_unflat hi', Res.bind_ok, bump_ok h1, Res.bind_ok, hgetset _ _ _ h1,
          if_pos ⟨by omega, hg⟩]
    · intro val hz u hu
      simp only [Kind.den, ofMat_shape] at hu
      split at hu
      · rw [Option.some.injEq] at hu
        subst hu
        have hsh : ((ofMat val (get t)).slabFill d st en zero).shape = shape := by
          simp [STensor.slabFill, hshape]
        refine ⟨hsh.symm, ?_⟩
        simp only [List.nil_append]
        refine range'_map_val (by rw [hsh]) fun k hk => ?_
        rw [hz _ (by omega) (by omega), hsh]
        simp only [STensor.slabFill, ofMat_shape, hm]
        have := hlt (by omega)
        rw [if_neg (by omega)]
      · simp at hu

end Godeep
