import Verif.Lemmas.Exec
import Verif.Props.MatReduce
import Verif.Props.MatDot
/-
  What each `BuildGraph` body leaves behind: a good `TensorMat` and operations that compute the
  right values.
-/
set_option linter.unusedSectionVars false

namespace Godeep
open Spec GoNum

variable {T : Type} [GoNum T]

/-! ### good matrices -/

theorem ofMat_flat {h : Heap T} {m : Mat} (G : GoodMat h m) (val : Ptr → T) :
    (ofMat val m).flat = m.ops.map val := by
  unfold ofMat
  rw [ofValues_flat]
  apply List.ext_getElem?
  intro k
  rw [List.getElem?_map, List.getElem?_map]
  by_cases hk : k < size m.shape
  · have : k < m.ops.length := by rw [G.len]; exact hk
    rw [List.getElem?_range hk, List.getElem?_eq_getElem this]
    simp [List.getD, this]
  · rw [List.getElem?_eq_none (by simpa using hk), List.getElem?_eq_none (by rw [G.len]; omega)]; rfl

theorem good_holds {h : Heap T} {m : Mat} (G : GoodMat h m) : Holds h m (ofMat h.val m) :=
  holds_of_flat rfl G.mul G.valid (ofMat_flat G h.val).symm

theorem _root_.Godeep.Spec.GoodMat.mono {h h' : Heap T} {m : Mat} (G : GoodMat h m)
    (he : h.next ≤ h'.next) : GoodMat h' m :=
  ⟨G.mul, G.len, fun p hp => ⟨(G.valid p hp).1, lt_of_lt_of_le (G.valid p hp).2 he⟩⟩

theorem good_operand {h : Heap T} {m : Mat} (G : GoodMat h m) {i : List Nat}
    (hi : InRange m.shape i) :
    ∃ p, m.getOperand i = .ok p ∧ p ∈ m.ops ∧ ∀ val : Ptr → T, val p = (ofMat val m).get i := by
  have hk : offset m.shape i < m.ops.length := by rw [G.len]; exact offset_lt hi
  refine ⟨m.ops[offset m.shape i], getOperand_ok (by rw [G.mul]; simp) hi (List.getElem?_eq_getElem hk),
    List.getElem_mem hk, fun val => ?_⟩
  simp [ofMat, STensor.ofValues, List.getD, hk]

theorem good_at {h : Heap T} {m : Mat} (G : GoodMat h m) {k : Nat} (hk : k < size m.shape) :
    ∃ p, m.ops[k]? = some p ∧ p ∈ m.ops ∧ ∀ val : Ptr → T, val p = (ofMat val m).get (unflat m.shape k) := by
  have hk' : k < m.ops.length := by rw [G.len]; exact hk
  refine ⟨m.ops[k], List.getElem?_eq_getElem hk', List.getElem_mem hk', fun val => ?_⟩
  simp [ofMat, STensor.ofValues, offset_unflat hk, List.getD, hk']

@[simp] theorem ofMat_shape (val : Ptr → T) (m : Mat) : (ofMat val m).shape = m.shape := rfl

/-! ### what a `BuildGraph` body guarantees -/

/-- the value stored in `mat` is the operation applied to the operands' values -/
def Sem (k : Kind T) (get : Nat → Mat) (mat : Mat) (val : Ptr → T) : Prop :=
  ∀ t, k.den val mat.shape (fun c => ofMat val (get c)) = some t →
    mat.shape = t.shape ∧ mat.ops.map val = t.flat

/-- operations that write only cells `lo ..< hi`, and whose execution makes `sem` true -/
structure Block (lo hi : Nat) (ops : List (Op T)) (sem : (Ptr → T) → Prop) (ne : Prop) : Prop where
  dst : ∀ q ∈ dsts ops, lo ≤ q ∧ q < hi
  reads : ∀ o ∈ ops, ∀ q ∈ o.reads, 0 < q ∧ q < hi
  args : ne → ∀ o ∈ ops, ArgsNonempty o
  empty : ¬ ne → ∃ o ∈ ops, ¬ ArgsNonempty o
  run : ∀ h h', (∀ q, lo ≤ q → q < hi → q ∉ dsts ops → h.val q = zero) →
    exec ops h = .ok () h' → sem h'.val

structure FinOK (k : Kind T) (get : Nat → Mat) (s s' : FSt T) : Prop where
  ext : Extends s.heap s'.heap
  good : GoodMat s'.heap s'.mat
  zero : ∀ q, s.heap.next ≤ q → q < s'.heap.next → s'.heap.val q = GoNum.zero
  ctx : ∃ new, s'.ctx = s.ctx ++ new ∧
    Block s.heap.next s'.heap.next new (Sem k get s'.mat) (k.redOK fun c => (get c).shape)

/-! ### allocation -/

/-- `n` new zero cells -/
def allocZ (n : Nat) (h : Heap T) : Heap T :=
  ⟨fun p => if h.next ≤ p ∧ p < h.next + n then zero else h.val p, h.next + n⟩

theorem allocZ_zero (h : Heap T) : allocZ 0 h = h := by
  cases h with
  | mk v n =>
    simp only [allocZ, Nat.add_zero]
    congr 1
    funext p
    rw [if_neg (by omega)]

theorem allocZ_succ (n : Nat) (h : Heap T) : allocZ n (h.alloc zero).2 = allocZ (n + 1) h := by
  have h1 : (h.alloc (zero : T)).2.next = h.next + 1 := rfl
  have h2 : ∀ p, (h.alloc (zero : T)).2.val p = if p = h.next then zero else h.val p := fun _ => rfl
  unfold allocZ
  rw [h1]
  congr 1
  · funext p
    rw [h2]
    split_ifs <;> first | rfl | omega
  · omega

theorem extends_allocZ (n : Nat) (h : Heap T) : Extends h (allocZ n h) :=
  ⟨by simp [allocZ], fun p hp => by simp only [allocZ]; rw [if_neg (by omega)]⟩

theorem allocZ_val (n : Nat) (h : Heap T) : ∀ q, h.next ≤ q → q < (allocZ n h).next →
    (allocZ n h).val q = zero := by
  intro q h1 h2
  simp only [allocZ] at h2 ⊢
  rw [if_pos ⟨h1, h2⟩]

theorem alloc_eq_allocZ (h : Heap T) : (h.alloc zero).2 = allocZ 1 h := by
  rw [← allocZ_succ 0, allocZ_zero]

theorem allocZ_allocZ (m n : Nat) (h : Heap T) : allocZ m (allocZ n h) = allocZ (n + m) h := by
  unfold allocZ
  congr 1
  · funext q
    simp only
    split_ifs <;> first | rfl | omega
  · simp only; omega

@[simp] theorem allocZ_next (n : Nat) (h : Heap T) : (allocZ n h).next = h.next + n := rfl

theorem zeros_eq (n : Nat) (h : Heap T) : Fin.zeros n h = (List.range' h.next n, allocZ n h) := by
  unfold Fin.zeros
  congr 1
  suffices ∀ (l : List Nat) (h : Heap T), l.foldl (fun h _ => (h.alloc zero).2) h = allocZ l.length h by
    simpa using this (List.range n) h
  intro l
  induction l with
  | nil => intro h; simp [allocZ_zero]
  | cons x l ih => intro h; rw [List.foldl_cons, ih, allocZ_succ]; rfl

theorem emitLoop_ok {f : Nat → Res (Rhs T)} {r : Nat → Rhs T} :
    ∀ (l : List Nat) (acc : List Ptr) (s : FSt T), (∀ i ∈ l, f i = .ok (r i)) →
      FSt.emitLoop f l acc s = .ok ()
        ⟨allocZ l.length s.heap, s.ctx ++ asgs s.heap.next (l.map r),
          { s.mat with ops := acc ++ List.range' s.heap.next l.length }⟩ := by
  intro l
  induction l with
  | nil => intro acc s _; simp [FSt.emitLoop, allocZ_zero, asgs]
  | cons i l ih =>
    intro acc s hf
    simp only [FSt.emitLoop, hf i (by simp)]
    rw [ih _ _ (fun j hj => hf j (by simp [hj]))]
    simp only [FSt.emit, allocZ_succ, List.length_cons, List.map_cons, asgs, List.range'_succ]
    simp [Heap.alloc]

/-- the pattern of `Oper2`, `OperScalar`, `Neg`, `Abs`, `Activate`, `DimMath` -/
theorem finOK_emit {k : Kind T} {get : Nat → Mat} {s : FSt T} {f : Nat → Res (Rhs T)}
    {r : Nat → Rhs T} {shape mul : List Nat} {n : Nat} (hpos : 0 < s.heap.next)
    (hm : mul = indexMul shape) (hn : n = size shape) (hf : ∀ i, i < n → f i = .ok (r i))
    (hr : ∀ i, i < n → ∀ q ∈ (r i).reads, Valid s.heap q)
    (hne : k.redOK (fun c => (get c).shape) → ∀ i p, i < n → ArgsNonempty (.asg p (r i)))
    (hem : ¬ k.redOK (fun c => (get c).shape) → ∃ i, i < n ∧ ∀ p, ¬ ArgsNonempty (.asg p (r i)))
    (hsem : ∀ h' : Heap T, (∀ i, i < n → (r i).eval h' = .ok (h'.val (s.heap.next + i))) →
      Sem k get ⟨shape, mul, List.range' s.heap.next n⟩ h'.val) :
    ∃ s', FSt.emitLoop f (List.range n) [] { s with mat := ⟨shape, mul, []⟩ } = .ok () s' ∧
      FinOK k get s s' := by
  refine ⟨_, emitLoop_ok _ _ _ (fun i hi => hf i (List.mem_range.1 hi)), ?_, ?_, allocZ_val _ _, ?_⟩
  · exact extends_allocZ _ _
  · refine ⟨hm, by simp [hn], fun p hp => ?_⟩
    simp only [List.nil_append, List.length_range, List.mem_range'_1] at hp
    refine ⟨by omega, ?_⟩
    simp only [allocZ_next, List.length_range]; omega
  · refine ⟨_, rfl, ?_, ?_, ?_, ?_, ?_⟩
    · intro q hq
      rw [mem_dsts_asgs] at hq
      simpa using hq
    · intro o ho q hq
      obtain ⟨i, rr, h1, rfl⟩ := of_mem_asgs ho
      rw [List.getElem?_map] at h1
      simp only [Option.map_eq_some_iff] at h1
      obtain ⟨j, hj, rfl⟩ := h1
      have := hr j (List.mem_range.1 (List.mem_of_getElem? hj)) q hq
      exact ⟨this.1, lt_of_lt_of_le this.2 (by simp)⟩
    · intro hk o ho
      obtain ⟨i, rr, h1, rfl⟩ := of_mem_asgs ho
      rw [List.getElem?_map] at h1
      simp only [Option.map_eq_some_iff] at h1
      obtain ⟨j, hj, rfl⟩ := h1
      exact hne hk j _ (List.mem_range.1 (List.mem_of_getElem? hj))
    · intro hk
      obtain ⟨i, hi, hp⟩ := hem hk
      exact ⟨_, mem_asgs (i := i) (r := r i) (by rw [List.getElem?_map, List.getElem?_range hi]; rfl), hp _⟩
    · intro h h' _ he
      have := exec_asgs (le_refl _) (fun rr hrr q hq => by
        obtain ⟨j, hj, rfl⟩ := List.mem_map.1 hrr
        exact (hr j (List.mem_range.1 hj) q hq).2) he
      have h2 := hsem h' (fun i hi => this i (r i) (by rw [List.getElem?_map, List.getElem?_range hi]; rfl))
      simpa using h2

/-- reading a block of consecutive cells -/
theorem range'_map_val {t : STensor T} {lo n : Nat} {val : Ptr → T} (hn : n = size t.shape)
    (hv : ∀ k, k < n → val (lo + k) = t.get (unflat t.shape k)) :
    (List.range' lo n).map val = t.flat := by
  rw [flat_eq_range, ← hn]
  apply List.ext_getElem?
  intro k
  rw [List.getElem?_map, List.getElem?_map]
  by_cases hk : k < n
  · rw [List.getElem?_range' hk, List.getElem?_range hk]
    simp [hv k hk]
  · rw [List.getElem?_eq_none (by simpa using hk), List.getElem?_eq_none (by simpa using hk)]; rfl

variable {get : Nat → Mat} {s : FSt T}

theorem fin_leaf (hg : GoodMat s.heap s.mat) :
    ∃ s', Fin.run get .leaf s = .ok () s' ∧ FinOK .leaf get s s' := by
  refine ⟨_, rfl, Extends.refl _, hg, fun q h1 h2 => absurd h2 (by simp only; omega), _, rfl, ?_, ?_, ?_, fun hn => absurd trivial hn, ?_⟩
  · intro q hq
    simp only [dsts, List.filterMap_map, List.mem_filterMap] at hq
    obtain ⟨x, _, hx⟩ := hq
    simp [Op.dst] at hx
  · intro o ho q hq
    obtain ⟨p, _, rfl⟩ := List.mem_map.1 ho
    simp [Op.reads] at hq
  · intro _ o ho
    obtain ⟨p, _, rfl⟩ := List.mem_map.1 ho
    trivial
  · intro h h' _ _ t ht
    simp [Kind.den] at ht

theorem arith_reads (o : Arith) (x y : Ptr) : (o.rhs x y : Rhs T).reads = [x, y] := by
  cases o <;> rfl

theorem arith_args (o : Arith) (x y p : Ptr) : ArgsNonempty (.asg p (o.rhs x y) : Op T) := by
  cases o <;> trivial

theorem red_reads (o : Red) (l : List Ptr) : (o.rhs l : Rhs T).reads = l := by
  cases o <;> rfl

theorem red_args (o : Red) {l : List Ptr} (p : Ptr) (hl : l ≠ []) :
    ArgsNonempty (.asg p (o.rhs l) : Op T) := by
  cases o <;> exact hl

theorem fin_op2 {o : Arith} {a b : Nat} (hpos : 0 < s.heap.next) (ga : GoodMat s.heap (get a))
    (gb : GoodMat s.heap (get b)) (hs : (get a).shape = (get b).shape) :
    ∃ s', Fin.run get (.op2 o a b) s = .ok () s' ∧ FinOK (.op2 o a b) get s s' := by
  have hla : (get a).getSize = size (get a).shape := ga.len
  simp only [Fin.run, Fin.op2, eqShapeErr_none.2 hs, hla]
  have hlb : (get b).ops.length = size (get a).shape := by rw [gb.len, hs]
  refine finOK_emit (r := fun i => o.rhs ((get a).ops.getD i 0) ((get b).ops.getD i 0)) hpos ga.mul rfl ?_ ?_ ?_ (fun hn => absurd trivial hn) ?_
  · intro i hi
    have h1 : i < (get a).ops.length := by rw [ga.len]; exact hi
    have h2 : i < (get b).ops.length := by omega
    simp [Res.index, h1, h2, List.getD]
  · intro i hi q hq
    have h1 : i < (get a).ops.length := by rw [ga.len]; exact hi
    have h2 : i < (get b).ops.length := by omega
    rw [arith_reads] at hq
    simp only [List.mem_cons, List.not_mem_nil, or_false] at hq
    rcases hq with rfl | rfl
    · apply ga.valid; simp [List.getD, h1]
    · apply gb.valid; simp [List.getD, h2]
  · intro _ i p _
    exact arith_args _ _ _ _
  · intro h' hv t ht
    simp only [Kind.den, ofMat_shape, hs, if_true, Option.some.injEq] at ht
    subst ht
    refine ⟨rfl, range'_map_val rfl fun k hk => ?_⟩
    rw [arith_eval (hv k hk)]
    obtain ⟨p, hp1, -, hp2⟩ := good_at ga hk
    obtain ⟨q, hq1, -, hq2⟩ := good_at gb (hs ▸ hk)
    simp only [STensor.zip, ofMat_shape]
    rw [← hp2, hs, ← hq2]
    simp [List.getD, hp1, hq1]

theorem fin_unary {k : Kind T} {t : Nat} {r : Ptr → Rhs T} {f : (Ptr → T) → T → T}
    (hpos : 0 < s.heap.next)
    (gt : GoodMat s.heap (get t)) (hr : ∀ p ∈ (get t).ops, ∀ q ∈ (r p).reads, Valid s.heap q)
    (hne : ∀ p q, ArgsNonempty (.asg p (r q))) (hrk : k.redOK fun c => (get c).shape)
    (hev : ∀ p v (h' : Heap T), (r p).eval h' = .ok v → v = f h'.val (h'.val p))
    (hden : ∀ val shape env, k.den val shape env = some ((env t).map (f val))) :
    ∃ s', Fin.unary r (get t) s = .ok () s' ∧ FinOK k get s s' := by
  have hlt : (get t).getSize = size (get t).shape := gt.len
  simp only [Fin.unary, hlt]
  refine finOK_emit (r := fun i => r ((get t).ops.getD i 0)) hpos gt.mul rfl ?_ ?_ ?_ (fun hn => absurd hrk hn) ?_
  · intro i hi
    have h1 : i < (get t).ops.length := by rw [gt.len]; exact hi
    simp [Res.index, h1, List.getD]
  · intro i hi q hq
    have h1 : i < (get t).ops.length := by rw [gt.len]; exact hi
    exact hr _ (by simp [List.getD, h1]) q hq
  · intro _ i p _; exact hne _ _
  · intro h' hv u hu
    rw [hden, Option.some.injEq] at hu
    subst hu
    refine ⟨rfl, range'_map_val rfl fun i hi => ?_⟩
    rw [hev _ _ _ (hv i hi)]
    obtain ⟨p, hp1, -, hp2⟩ := good_at gt hi
    simp only [STensor.map, ofMat_shape]
    rw [← hp2]
    simp [List.getD, hp1]

theorem fin_opScalar {o : Arith} {t : Nat} {p : Ptr} (hpos : 0 < s.heap.next)
    (gt : GoodMat s.heap (get t)) (hp : Valid s.heap p) :
    ∃ s', Fin.run get (.opScalar o t p) s = .ok () s' ∧ FinOK (.opScalar o t p) get s s' := by
  refine fin_unary (f := fun val x => o.fn x (val p)) hpos gt ?_ (fun _ _ => arith_args _ _ _ _) trivial
    (fun q v h' hv => arith_eval hv) (fun _ _ _ => rfl)
  intro q hq c hc
  rw [arith_reads] at hc
  simp only [List.mem_cons, List.not_mem_nil, or_false] at hc
  rcases hc with rfl | rfl
  · exact gt.valid _ hq
  · exact hp

theorem fin_neg {t : Nat} (hpos : 0 < s.heap.next) (gt : GoodMat s.heap (get t)) :
    ∃ s', Fin.run get (.neg t) s = .ok () s' ∧ FinOK (.neg t) get s s' := by
  refine fin_unary (f := fun _ => GoNum.neg) hpos gt ?_ (fun _ _ => trivial) trivial ?_ (fun _ _ _ => rfl)
  · intro q hq c hc
    simp only [Rhs.reads, List.mem_cons, List.not_mem_nil, or_false] at hc
    subst hc; exact gt.valid _ hq
  · intro p v h' hv
    obtain ⟨x, hx, rfl⟩ := res_map_ok hv
    rw [(load_ok hx).2]

theorem fin_abs {t : Nat} (hpos : 0 < s.heap.next) (gt : GoodMat s.heap (get t)) :
    ∃ s', Fin.run get (.abs t) s = .ok () s' ∧ FinOK (.abs t) get s s' := by
  refine fin_unary (f := fun _ x => if lt x zero then GoNum.neg x else x) hpos gt ?_ (fun _ _ => trivial) trivial ?_
    (fun _ _ _ => rfl)
  · intro q hq c hc
    simp only [Rhs.reads, List.mem_cons, List.not_mem_nil, or_false] at hc
    subst hc; exact gt.valid _ hq
  · intro p v h' hv
    obtain ⟨x, hx, rfl⟩ := res_map_ok hv
    rw [(load_ok hx).2]

theorem fin_act {g : T → T} {t : Nat} (hpos : 0 < s.heap.next) (gt : GoodMat s.heap (get t)) :
    ∃ s', Fin.run get (.act g t) s = .ok () s' ∧ FinOK (.act g t) get s s' := by
  refine fin_unary (f := fun _ => g) hpos gt ?_ (fun _ _ => trivial) trivial ?_ (fun _ _ _ => rfl)
  · intro q hq c hc
    simp only [Rhs.reads, List.mem_cons, List.not_mem_nil, or_false] at hc
    subst hc; exact gt.valid _ hq
  · intro p v h' hv
    obtain ⟨x, hx, rfl⟩ := res_map_ok hv
    rw [(load_ok hx).2]

theorem mul_at {h : Heap T} {m : Mat} (G : GoodMat h m) {d : Nat} (hd : d < m.shape.length) :
    m.mul[d]? = some (size (m.shape.drop (d + 1))) := by
  rw [G.mul, indexMul_eq]
  generalize m.shape = l at hd
  induction l generalizing d with
  | nil => simp at hd
  | cons x l ih =>
    cases d with
    | zero => simp [strides]
    | succ d => simpa [strides] using ih (by simpa using hd)

theorem fin_dimMath {r : Red} {d t : Nat} (hpos : 0 < s.heap.next) (gt : GoodMat s.heap (get t))
    (hd : d < (get t).shape.length) :
    ∃ s', Fin.run get (.dimMath r d t) s = .ok () s' ∧ FinOK (.dimMath r d t) get s s' := by
  have hmul := mul_at gt hd
  simp only [Fin.run, Fin.dimMath]
  rw [if_neg (by omega)]
  simp only [Res.index_eq hmul, dataSize_eq]
  generalize hmi : size ((get t).shape.drop (d + 1)) = mi
  have hle : ∀ k, k < size ((get t).shape.take (d + 1)) → k * mi + mi ≤ (get t).ops.length := by
    intro k hk
    rw [gt.len, ← List.take_append_drop (d + 1) (get t).shape, size_append, hmi]
    calc k * mi + mi = (k + 1) * mi := by ring
      _ ≤ _ := Nat.mul_le_mul_right _ hk
  refine finOK_emit (r := fun i => r.rhs (((get t).ops.drop (i * mi)).take mi)) hpos rfl rfl ?_ ?_ ?_ ?_ ?_
  · intro i hi
    simp only [Mat.slice]
    rw [if_pos ⟨by omega, hle i hi⟩, show i * mi + mi - i * mi = mi by omega]; rfl
  · intro i hi q hq
    rw [red_reads] at hq
    exact gt.valid q (List.mem_of_mem_drop (List.mem_of_mem_take hq))
  · intro hne i p hi
    apply red_args
    have hne' : mi ≠ 0 := by
      rcases hne with hne | hne
      · rw [← hmi]; exact hne
      · have hne0 : size ((get t).shape.take (d + 1)) = 0 := hne
        omega
    intro hc
    have := congrArg List.length hc
    simp only [List.length_take, List.length_drop, List.length_nil] at this
    have := hle i hi
    omega
  · intro hne
    simp only [Kind.redOK, hmi, not_or, not_not] at hne
    refine ⟨0, Nat.pos_of_ne_zero hne.2, fun p => ?_⟩
    rw [hne.1]
    cases r <;> simp [Red.rhs, ArgsNonempty]
  · intro h' hv u hu
    simp only [Kind.den, ofMat_shape, hd, if_true, Option.some.injEq] at hu
    subst hu
    refine ⟨rfl, range'_map_val rfl fun i hi => ?_⟩
    rw [red_eval (hv i hi), List.map_take, List.map_drop, ← ofMat_flat gt, ← hmi]
    have := Props.dim_slice (A := ofMat h'.val (get t)) (d := d) (i := i) hi
    simp only [ofMat_shape] at this
    rw [this]
    rfl

theorem fin_math {r : Red} {t : Nat} (hpos : 0 < s.heap.next) (gt : GoodMat s.heap (get t)) :
    ∃ s', Fin.run get (.math r t) s = .ok () s' ∧ FinOK (.math r t) get s s' := by
  refine ⟨_, rfl, extends_alloc _ _, ⟨rfl, rfl, ?_⟩, ?_, _, rfl, ?_, ?_, ?_, ?_, ?_⟩
  rotate_left
  · simp only [FSt.emit, alloc_eq_allocZ]; exact allocZ_val _ _
  rotate_right
  · intro p hp
    simp only [FSt.emit, List.mem_cons, List.not_mem_nil, or_false] at hp
    subst hp
    exact ⟨hpos, by simp [FSt.emit, Heap.alloc]⟩
  · intro q hq
    simp only [dsts_asg, dsts_nil, List.mem_cons, List.not_mem_nil, or_false] at hq
    subst hq
    simp [FSt.emit, Heap.alloc]
  · intro o ho q hq
    simp only [List.mem_cons, List.not_mem_nil, or_false] at ho
    subst ho
    rw [Op.reads, red_reads] at hq
    have := gt.valid q hq
    exact ⟨this.1, by simp only [FSt.emit, Heap.alloc]; exact Nat.lt_succ_of_lt this.2⟩
  · intro hne o ho
    simp only [List.mem_cons, List.not_mem_nil, or_false] at ho
    subst ho
    apply red_args
    intro hc
    have := congrArg List.length hc
    rw [gt.len] at this
    exact hne this
  · intro hne
    refine ⟨_, List.mem_singleton.2 rfl, ?_⟩
    have h0 : (get t).ops = [] := List.length_eq_zero_iff.1 (by rw [gt.len]; simpa [Kind.redOK] using hne)
    rw [h0]
    cases r <;> simp [Red.rhs, ArgsNonempty]
  · intro h h' _ he u hu
    simp only [Kind.den, Option.some.injEq] at hu
    subst hu
    have := exec_asgs (rs := [r.rhs (get t).ops]) (lo := s.heap.next) (le_refl _) (by
      intro x hx q hq
      simp only [List.mem_cons, List.not_mem_nil, or_false] at hx
      subst hx
      rw [red_reads] at hq
      exact (gt.valid q hq).2) he 0 _ rfl
    refine ⟨rfl, ?_⟩
    simp only [FSt.emit, List.map_cons, List.map_nil]
    rw [show h'.val s.heap.next = h'.val (s.heap.next + 0) from rfl, red_eval this, ← ofMat_flat gt]
    rfl

end Godeep
