import Verif.Spec.Learn
import Verif.Props.Gradient
import Verif.Props.Img
/-
  Dense layers, convolutions and transposed convolutions over the real numbers as sums over the edges between
  elements of the input and the output.
-/
set_option linter.unusedSectionVars false

namespace Godeep
open Spec Props

/-- all indices of a shape -/
def idxs (s : List Nat) : Finset (List Nat) := (allIdx s).toFinset

theorem mem_idxs {s i : List Nat} : i ∈ idxs s ↔ InRange s i := by
  unfold idxs; rw [List.mem_toFinset, mem_allIdx]

theorem sum_allIdx (s : List Nat) (f : List Nat → ℝ) : ((allIdx s).map f).sum = ∑ i ∈ idxs s, f i :=
  (List.sum_toFinset f (nodup_allIdx s)).symm

theorem sum_filter_allIdx (s : List Nat) (P : List Nat → Prop) [DecidablePred P] (f : List Nat → ℝ) :
    (((allIdx s).filter fun k => decide (P k)).map f).sum = ∑ i ∈ idxs s with P i, f i := by
  rw [← List.sum_toFinset f ((nodup_allIdx s).filter _), List.toFinset_filter]
  simp only [idxs, decide_eq_true_eq]

theorem foldl_real (l : List (List Nat)) (f : List Nat → ℝ) (a : ℝ) : l.foldl (fun s k => s + f k) a = a + (l.map f).sum := by
  induction l generalizing a with
  | nil => simp
  | cons b l ih => rw [List.foldl_cons, ih, List.map_cons, List.sum_cons]; ring

theorem sum_one (n : Nat) (f : List Nat → ℝ) : ∑ i ∈ idxs [n], f i = ∑ j ∈ Finset.range n, f [j] := by
  rw [← sum_allIdx, idxSum1]

theorem sum_unflat (s : List Nat) (f : Nat → List Nat → ℝ) : ∑ j ∈ Finset.range (size s), f j (unflat s j) = ∑ i ∈ idxs s, f (offset s i) i := by
  rw [← sum_allIdx, idxSum]
  exact Finset.sum_congr rfl fun j hj => by rw [offset_unflat (Finset.mem_range.1 hj)]

/-- edges between the elements of the input and of the output; each has a weight -/
structure Lin where
  E : Finset (List Nat)
  inp : List Nat → List Nat
  out : List Nat → List Nat
  wt : List Nat → List Nat

namespace Lin

/-- the value of output `o` -/
noncomputable def val (L : Lin) (w b x : List Nat → ℝ) (o : List Nat) : ℝ := b o + ∑ k ∈ L.E with L.out k = o, x (L.inp k) * w (L.wt k)

/-- the errors of input `i` -/
noncomputable def back (L : Lin) (w r : List Nat → ℝ) (i : List Nat) : ℝ := ∑ k ∈ L.E with L.inp k = i, r (L.out k) * w (L.wt k)

/-- the change of weight `q` -/
noncomputable def grad (L : Lin) (r x : List Nat → ℝ) (q : List Nat) : ℝ := ∑ k ∈ L.E with L.wt k = q, r (L.out k) * x (L.inp k)

theorem val_deriv (L : Lin) {xs : List Nat} (hin : ∀ k ∈ L.E, InRange xs (L.inp k)) (w b : List Nat → ℝ) {xt : ℝ → List Nat → ℝ} {u : List Nat → ℝ} {t0 : ℝ}
    (h : ∀ i, InRange xs i → HasDerivAt (fun t => xt t i) (u i) t0) (o : List Nat) :
    HasDerivAt (fun t => L.val w b (xt t) o) (∑ k ∈ L.E with L.out k = o, u (L.inp k) * w (L.wt k)) t0 := by
  refine HasDerivAt.const_add _ (HasDerivAt.fun_sum fun k hk => ?_)
  exact (h _ (hin k (Finset.mem_filter.1 hk).1)).mul_const _

theorem sum_fiber (E : Finset (List Nat)) (f : List Nat → List Nat) {s : List Nat} (h : ∀ k ∈ E, InRange s (f k)) (a b : List Nat → ℝ) :
    ∑ o ∈ idxs s, a o * ∑ k ∈ E with f k = o, b k = ∑ k ∈ E, a (f k) * b k := by
  rw [← Finset.sum_fiberwise_of_maps_to (s := E) (t := idxs s) (g := f) fun k hk => mem_idxs.2 (h k hk)]
  refine Finset.sum_congr rfl fun o _ => ?_
  rw [Finset.mul_sum]
  exact Finset.sum_congr rfl fun k hk => by rw [(Finset.mem_filter.1 hk).2]

theorem back_sum (L : Lin) {xs os : List Nat} (hin : ∀ k ∈ L.E, InRange xs (L.inp k)) (hout : ∀ k ∈ L.E, InRange os (L.out k)) (w r D v : List Nat → ℝ) :
    ∑ o ∈ idxs os, r o * ∑ k ∈ L.E with L.out k = o, (D (L.inp k) * v (L.inp k)) * w (L.wt k) =
      ∑ i ∈ idxs xs, (L.back w r i * D i) * v i := by
  rw [sum_fiber L.E L.out hout]
  have : ∀ i, L.back w r i * D i * v i = (D i * v i) * ∑ k ∈ L.E with L.inp k = i, r (L.out k) * w (L.wt k) := fun i => by
    unfold back; ring
  simp only [this]
  rw [sum_fiber L.E L.inp hin]
  exact Finset.sum_congr rfl fun k _ => by ring

theorem weight_deriv (L : Lin) (w b x : List Nat → ℝ) (q o : List Nat) :
    HasDerivAt (fun t => L.val (fun i => if i = q then t else w i) b x o) (∑ k ∈ L.E with L.out k = o, if L.wt k = q then x (L.inp k) else 0) (w q) := by
  refine HasDerivAt.const_add _ (HasDerivAt.fun_sum fun k _ => ?_)
  by_cases h : L.wt k = q
  · simpa [h] using (hasDerivAt_id (w q)).const_mul (x (L.inp k))
  · simpa [h] using hasDerivAt_const (w q) (x (L.inp k) * w (L.wt k))

theorem weight_sum (L : Lin) {os : List Nat} (hout : ∀ k ∈ L.E, InRange os (L.out k)) (r x : List Nat → ℝ) (q : List Nat) :
    ∑ o ∈ idxs os, r o * (∑ k ∈ L.E with L.out k = o, if L.wt k = q then x (L.inp k) else 0) = L.grad r x q := by
  rw [sum_fiber L.E L.out hout]
  unfold grad
  rw [Finset.sum_filter]
  exact Finset.sum_congr rfl fun k _ => by split <;> simp

theorem bias_deriv (L : Lin) (w b x : List Nat → ℝ) (q o : List Nat) :
    HasDerivAt (fun t => L.val w (fun i => if i = q then t else b i) x o) (if o = q then 1 else 0) (b q) := by
  refine HasDerivAt.add_const _ ?_
  by_cases h : o = q
  · simpa [h] using hasDerivAt_id' (b q)
  · simpa [h] using hasDerivAt_const (b q) (b o)

theorem bias_sum {os : List Nat} (r : List Nat → ℝ) {q : List Nat} (hq : InRange os q) : ∑ o ∈ idxs os, r o * (if o = q then 1 else 0) = r q := by
  simp only [mul_ite, mul_one, mul_zero]
  rw [Finset.sum_ite_eq', if_pos (mem_idxs.2 hq)]

end Lin

/-! ### the three kinds -/

/-- the edges of a dense layer of `n` neurons on inputs of shape `s` -/
def denseLin (n : Nat) (s : List Nat) : Lin := ⟨idxs (n :: s), fun k => k.tail, fun k => [k.headD 0], fun k => [k.headD 0, offset s k.tail]⟩

theorem denseLin_in {n : Nat} {s : List Nat} : ∀ k ∈ (denseLin n s).E, InRange s ((denseLin n s).inp k) := fun k hk => by
  obtain ⟨i, r, rfl, h1, h2⟩ := inRange_cons_left (mem_idxs.1 hk)
  exact h2

theorem denseLin_out {n : Nat} {s : List Nat} : ∀ k ∈ (denseLin n s).E, InRange [n] ((denseLin n s).out k) := fun k hk => by
  obtain ⟨i, r, rfl, h1, h2⟩ := inRange_cons_left (mem_idxs.1 hk)
  exact List.Forall₂.cons h1 .nil

theorem dense_val {n : Nat} {w b x : STensor ℝ} {o : List Nat} (ho : InRange [n] o) :
    (denseFn id w b x).get o = (denseLin n x.shape).val w.get b.get x.get o := by
  obtain ⟨j, hj, rfl⟩ := inRange_one ho
  rw [dense_real, List.getD_cons_zero, sum_unflat x.shape fun m i => x.get i * w.get [j, m], add_comm]
  unfold Lin.val
  congr 1
  refine Finset.sum_nbij' (fun i => j :: i) (fun k => k.tail) (fun i hi => ?_) (fun k hk => ?_) (fun i _ => rfl) (fun k hk => ?_) (fun i _ => rfl)
  · exact Finset.mem_filter.2 ⟨mem_idxs.2 (inRange_cons.2 ⟨hj, mem_idxs.1 hi⟩), rfl⟩
  · exact mem_idxs.2 (denseLin_in k (Finset.mem_filter.1 hk).1)
  · obtain ⟨h1, h2⟩ := Finset.mem_filter.1 hk
    obtain ⟨i, r, rfl, _, _⟩ := inRange_cons_left (mem_idxs.1 h1)
    simp only [denseLin, List.headD_cons, List.cons.injEq, and_true] at h2
    rw [List.tail_cons, h2]

theorem dense_back {n : Nat} {w d x D : STensor ℝ} (hd : d.shape = [n]) {i : List Nat} (hi : InRange x.shape i) :
    (denseBack w d x D).get i = (denseLin n x.shape).back w.get d.get i * D.get i := by
  show (0 : ℝ) + sum1 _ * D.get i = _
  rw [sum1_real, lsum, zero_add]
  congr 1
  unfold Lin.back
  rw [hd]
  refine Finset.sum_nbij' (fun j => j :: i) (fun k => k.headD 0) (fun j hj => ?_) (fun k hk => ?_) (fun j _ => rfl) (fun k hk => ?_) (fun j _ => rfl)
  · exact Finset.mem_filter.2 ⟨mem_idxs.2 (inRange_cons.2 ⟨by simpa [size] using hj, hi⟩), rfl⟩
  · obtain ⟨h1, h2⟩ := Finset.mem_filter.1 hk
    obtain ⟨i, r, rfl, h, _⟩ := inRange_cons_left (mem_idxs.1 h1)
    simpa [size] using h
  · obtain ⟨h1, h2⟩ := Finset.mem_filter.1 hk
    obtain ⟨i, r, rfl, _, _⟩ := inRange_cons_left (mem_idxs.1 h1)
    simp only [denseLin, List.tail_cons] at h2
    rw [List.headD_cons, h2]

theorem dense_grad {n : Nat} {s : List Nat} (r x : List Nat → ℝ) {j m : Nat} (hj : j < n) (hm : m < size s) :
    (denseLin n s).grad r x [j, m] = r [j] * x (unflat s m) := by
  unfold Lin.grad
  rw [Finset.sum_eq_single (j :: unflat s m)]
  · rfl
  · intro k hk hne
    obtain ⟨h1, h2⟩ := Finset.mem_filter.1 hk
    obtain ⟨i, q, rfl, _, h⟩ := inRange_cons_left (mem_idxs.1 h1)
    simp only [denseLin, List.headD_cons, List.tail_cons, List.cons.injEq, and_true] at h2
    refine absurd ?_ hne
    rw [← h2.1, ← h2.2, unflat_offset h]
  · intro h
    refine absurd (Finset.mem_filter.2 ⟨mem_idxs.2 (inRange_cons.2 ⟨hj, unflat_inRange hm⟩), ?_⟩) h
    simp only [denseLin, List.headD_cons, List.tail_cons]
    rw [offset_unflat hm]

/-- the edges of a convolution -/
def convLin (nf C A B kw kh sx sy : Nat) : Lin :=
  ⟨idxs [nf, A, B, C, kw, kh], fun k => [k.getD 3 0, k.getD 1 0 * sx + k.getD 4 0, k.getD 2 0 * sy + k.getD 5 0], fun k => k.take 3,
    fun k => [k.getD 0 0, k.getD 3 0, k.getD 4 0, k.getD 5 0]⟩

/-- the edges of a transposed convolution -/
def deconvLin (nf C H W kw kh sx sy : Nat) : Lin :=
  ⟨idxs [C, H, W, nf, kw, kh], fun k => k.take 3, fun k => [k.getD 3 0, k.getD 1 0 * sx + k.getD 4 0, k.getD 2 0 * sy + k.getD 5 0],
    fun k => [k.getD 3 0, k.getD 0 0, k.getD 4 0, k.getD 5 0]⟩

theorem inRange_six {a b c d e f : Nat} {i : List Nat} (h : InRange [a, b, c, d, e, f] i) :
    ∃ i0 i1 i2 i3 i4 i5, i = [i0, i1, i2, i3, i4, i5] ∧ i0 < a ∧ i1 < b ∧ i2 < c ∧ i3 < d ∧ i4 < e ∧ i5 < f := by
  obtain ⟨i0, r, rfl, h0, h⟩ := inRange_cons_left h
  obtain ⟨i1, r, rfl, h1, h⟩ := inRange_cons_left h
  obtain ⟨i2, r, rfl, h2, h⟩ := inRange_cons_left h
  obtain ⟨i3, i4, i5, rfl, h3, h4, h5⟩ := inRange_three h
  exact ⟨_, _, _, _, _, _, rfl, h0, h1, h2, h3, h4, h5⟩

theorem inRange_four {a b c d : Nat} {i : List Nat} (h : InRange [a, b, c, d] i) :
    ∃ i0 i1 i2 i3, i = [i0, i1, i2, i3] ∧ i0 < a ∧ i1 < b ∧ i2 < c ∧ i3 < d := by
  obtain ⟨i0, r, rfl, h0, h⟩ := inRange_cons_left h
  obtain ⟨i1, i2, i3, rfl, h1, h2, h3⟩ := inRange_three h
  exact ⟨_, _, _, _, rfl, h0, h1, h2, h3⟩

theorem inRange_five {a b c d e : Nat} {i : List Nat} (h : InRange [a, b, c, d, e] i) :
    ∃ i0 i1 i2 i3 i4, i = [i0, i1, i2, i3, i4] ∧ i0 < a ∧ i1 < b ∧ i2 < c ∧ i3 < d ∧ i4 < e := by
  obtain ⟨i0, r, rfl, h0, h⟩ := inRange_cons_left h
  obtain ⟨i1, i2, i3, i4, rfl, h1, h2, h3, h4⟩ := inRange_four h
  exact ⟨_, _, _, _, _, rfl, h0, h1, h2, h3, h4⟩

section conv
variable {nf C A B H W kw kh sx sy : Nat}

theorem convLin_in (hA : ∀ a i, a < A → i < kw → a * sx + i < H) (hB : ∀ b j, b < B → j < kh → b * sy + j < W) :
    ∀ k ∈ (convLin nf C A B kw kh sx sy).E, InRange [C, H, W] ((convLin nf C A B kw kh sx sy).inp k) := fun k hk => by
  obtain ⟨i0, i1, i2, i3, i4, i5, rfl, h0, h1, h2, h3, h4, h5⟩ := inRange_six (mem_idxs.1 hk)
  simp only [convLin, inRange_cons]
  exact ⟨h3, hA _ _ h1 h4, hB _ _ h2 h5, .nil⟩

theorem convLin_out : ∀ k ∈ (convLin nf C A B kw kh sx sy).E, InRange [nf, A, B] ((convLin nf C A B kw kh sx sy).out k) := fun k hk => by
  obtain ⟨i0, i1, i2, i3, i4, i5, rfl, h0, h1, h2, h3, h4, h5⟩ := inRange_six (mem_idxs.1 hk)
  simp only [convLin, inRange_cons, List.take]
  exact ⟨h0, h1, h2, .nil⟩

theorem deconvLin_out {A B : Nat} (hA : ∀ a i, a < H → i < kw → a * sx + i < A) (hB : ∀ b j, b < W → j < kh → b * sy + j < B) :
    ∀ k ∈ (deconvLin nf C H W kw kh sx sy).E, InRange [nf, A, B] ((deconvLin nf C H W kw kh sx sy).out k) :=
  convLin_in (nf := C) (C := nf) (A := H) (B := W) hA hB

theorem deconvLin_in : ∀ k ∈ (deconvLin nf C H W kw kh sx sy).E, InRange [C, H, W] ((deconvLin nf C H W kw kh sx sy).inp k) :=
  convLin_out (nf := C) (C := nf) (A := H) (B := W) (sx := sx) (sy := sy)

theorem conv_val {w b x : STensor ℝ} (hC : x.shape.getD 0 0 = C) {o : List Nat} (ho : InRange [nf, A, B] o) :
    (convFn id kw kh sx sy w b x).get o = (convLin nf C A B kw kh sx sy).val w.get b.get x.get o := by
  obtain ⟨f, a, c, rfl, hf, ha, hb⟩ := inRange_three ho
  show b.get _ + sum1 _ = _
  rw [sum1_real, sum_allIdx, hC]
  unfold Lin.val
  congr 1
  refine Finset.sum_nbij' (fun k => f :: a :: c :: k) (fun k => k.drop 3) (fun k hk => ?_) (fun k hk => ?_) (fun k _ => rfl) (fun k hk => ?_) (fun k hk => ?_)
  · refine Finset.mem_filter.2 ⟨mem_idxs.2 ?_, rfl⟩
    simp only [inRange_cons]
    exact ⟨hf, ha, hb, mem_idxs.1 hk⟩
  · obtain ⟨h1, h2⟩ := Finset.mem_filter.1 hk
    obtain ⟨i0, i1, i2, i3, i4, i5, rfl, q0, q1, q2, q3, q4, q5⟩ := inRange_six (mem_idxs.1 h1)
    refine mem_idxs.2 ?_
    simp only [List.drop, inRange_cons]
    exact ⟨q3, q4, q5, .nil⟩
  · obtain ⟨h1, h2⟩ := Finset.mem_filter.1 hk
    obtain ⟨i0, i1, i2, i3, i4, i5, rfl, q0, q1, q2, q3, q4, q5⟩ := inRange_six (mem_idxs.1 h1)
    simp only [convLin, List.take, List.cons.injEq, and_true] at h2
    obtain ⟨rfl, rfl, rfl⟩ := h2
    rfl
  · obtain ⟨i0, i1, i2, rfl, _⟩ := inRange_three (mem_idxs.1 hk)
    rfl

theorem conv_back {w d x D : STensor ℝ} (hC : x.shape.getD 0 0 = C) (hd : d.shape = [nf, A, B]) {i : List Nat} (hi : InRange [C, H, W] i) :
    (convBack kw kh sx sy w d x D).get i = (convLin nf C A B kw kh sx sy).back w.get d.get i * D.get i := by
  show List.foldl (fun s k => s + _ * _ * _) (0 : ℝ) _ = _
  rw [foldl_real _ (fun k => d.get (k.take 3) * w.get [k.getD 0 0, k.getD 3 0, k.getD 4 0, k.getD 5 0] * D.get i), zero_add, sum_filter_allIdx]
  unfold Lin.back
  rw [Finset.sum_mul, hd, hC]
  refine Finset.sum_congr ?_ fun k _ => rfl
  obtain ⟨c, p, q, rfl, _⟩ := inRange_three hi
  ext k
  simp only [Finset.mem_filter, convLin, List.cons.injEq, and_true]
  rfl

theorem conv_grad {w d x : STensor ℝ} (hd : d.shape.getD 1 0 = A ∧ d.shape.getD 2 0 = B) {q : List Nat} (hq : InRange [nf, C, kw, kh] q) (al mu : ℝ) :
    (convWeights sx sy al mu d x w).get q = w.get q + al * (convLin nf C A B kw kh sx sy).grad d.get x.get q := by
  obtain ⟨f, c, i, j, rfl, hf, hc, hi, hj⟩ := inRange_four hq
  show sum1 [_, sum1 _, (0 : ℝ) * mu] = _
  rw [sum1_real, sum1_real, sum_allIdx, hd.1, hd.2]
  simp only [List.sum_cons, List.sum_nil, zero_mul, add_zero]
  congr 1
  unfold Lin.grad
  rw [Finset.mul_sum]
  refine Finset.sum_nbij' (fun o => f :: o ++ [c, i, j]) (fun k => (k.drop 1).take 2) (fun o ho => ?_) (fun k hk => ?_) (fun o ho => ?_) (fun k hk => ?_) (fun o ho => ?_)
  · obtain ⟨a, b, ha, hb, rfl⟩ := inRange_two (mem_idxs.1 ho)
    refine Finset.mem_filter.2 ⟨mem_idxs.2 ?_, rfl⟩
    simp only [List.cons_append, List.nil_append, inRange_cons]
    exact ⟨hf, ha, hb, hc, hi, hj, .nil⟩
  · obtain ⟨h1, h2⟩ := Finset.mem_filter.1 hk
    obtain ⟨i0, i1, i2, i3, i4, i5, rfl, q0, q1, q2, q3, q4, q5⟩ := inRange_six (mem_idxs.1 h1)
    refine mem_idxs.2 ?_
    simp only [List.drop, List.take, inRange_cons]
    exact ⟨q1, q2, .nil⟩
  · obtain ⟨a, b, ha, hb, rfl⟩ := inRange_two (mem_idxs.1 ho)
    rfl
  · obtain ⟨h1, h2⟩ := Finset.mem_filter.1 hk
    obtain ⟨i0, i1, i2, i3, i4, i5, rfl, q0, q1, q2, q3, q4, q5⟩ := inRange_six (mem_idxs.1 h1)
    simp only [convLin, List.getD_cons_zero, List.getD_cons_succ, List.cons.injEq, and_true] at h2
    obtain ⟨rfl, rfl, rfl, rfl⟩ := h2
    rfl
  · obtain ⟨a, b, ha, hb, rfl⟩ := inRange_two (mem_idxs.1 ho)
    show d.get [f, a, b] * al * x.get _ = al * (d.get [f, a, b] * x.get _)
    ring_nf
    rfl

theorem deconv_val {w b x : STensor ℝ} (hx : x.shape = [C, H, W]) {A B : Nat} {o : List Nat} (ho : InRange [nf, A, B] o) :
    (deconvFn id kw kh sx sy w b x).get o = (deconvLin nf C H W kw kh sx sy).val w.get b.get x.get o := by
  obtain ⟨f, a, c, rfl, hf, ha, hb⟩ := inRange_three ho
  show id (List.foldl (fun s k => s + _ * _) (b.get _) _) = _
  rw [id, foldl_real _ (fun k => x.get (k.take 3) * w.get [[f, a, c].getD 0 0, k.getD 0 0, k.getD 3 0, k.getD 4 0]), sum_filter_allIdx, hx]
  unfold Lin.val
  congr 1
  refine Finset.sum_nbij' (fun k => k.take 3 ++ f :: k.drop 3) (fun k => k.take 3 ++ k.drop 4) (fun k hk => ?_) (fun k hk => ?_) (fun k hk => ?_) (fun k hk => ?_) (fun k hk => ?_)
  · obtain ⟨h1, h2⟩ := Finset.mem_filter.1 hk
    obtain ⟨i0, i1, i2, i3, i4, rfl, q0, q1, q2, q3, q4⟩ := inRange_five (mem_idxs.1 h1)
    refine Finset.mem_filter.2 ⟨mem_idxs.2 ?_, ?_⟩
    · simp only [List.take, List.drop, List.cons_append, List.nil_append, inRange_cons]
      exact ⟨q0, q1, q2, hf, q3, q4, .nil⟩
    · have := h2.1; have := h2.2
      simp_all [deconvLin]
  · obtain ⟨h1, h2⟩ := Finset.mem_filter.1 hk
    obtain ⟨i0, i1, i2, i3, i4, i5, rfl, q0, q1, q2, q3, q4, q5⟩ := inRange_six (mem_idxs.1 h1)
    refine Finset.mem_filter.2 ⟨mem_idxs.2 ?_, ?_⟩
    · simp only [List.take, List.drop, List.cons_append, List.nil_append, inRange_cons]
      exact ⟨q0, q1, q2, q4, q5, .nil⟩
    · simp [deconvLin] at h2 ⊢
      exact h2.2
  · obtain ⟨h1, h2⟩ := Finset.mem_filter.1 hk
    obtain ⟨i0, i1, i2, i3, i4, rfl, q0, q1, q2, q3, q4⟩ := inRange_five (mem_idxs.1 h1)
    rfl
  · obtain ⟨h1, h2⟩ := Finset.mem_filter.1 hk
    obtain ⟨i0, i1, i2, i3, i4, i5, rfl, q0, q1, q2, q3, q4, q5⟩ := inRange_six (mem_idxs.1 h1)
    simp [deconvLin] at h2 ⊢
    exact h2.1.symm
  · obtain ⟨h1, h2⟩ := Finset.mem_filter.1 hk
    obtain ⟨i0, i1, i2, i3, i4, rfl, q0, q1, q2, q3, q4⟩ := inRange_five (mem_idxs.1 h1)
    rfl

theorem deconv_back {w d x D : STensor ℝ} (hd : d.shape.getD 0 0 = nf) {i : List Nat} (hi : InRange [C, H, W] i) :
    (deconvBack kw kh sx sy w d x D).get i = (deconvLin nf C H W kw kh sx sy).back w.get d.get i * D.get i := by
  obtain ⟨c, p, q, rfl, hc, hp, hq⟩ := inRange_three hi
  show (0 : ℝ) + sum1 _ * D.get _ = _
  rw [sum1_real, sum_allIdx, hd, zero_add]
  congr 1
  unfold Lin.back
  refine Finset.sum_nbij' (fun k => c :: p :: q :: k) (fun k => k.drop 3) (fun k hk => ?_) (fun k hk => ?_) (fun k _ => rfl) (fun k hk => ?_) (fun k hk => ?_)
  · refine Finset.mem_filter.2 ⟨mem_idxs.2 ?_, rfl⟩
    simp only [inRange_cons]
    exact ⟨hc, hp, hq, mem_idxs.1 hk⟩
  · obtain ⟨h1, h2⟩ := Finset.mem_filter.1 hk
    obtain ⟨i0, i1, i2, i3, i4, i5, rfl, q0, q1, q2, q3, q4, q5⟩ := inRange_six (mem_idxs.1 h1)
    refine mem_idxs.2 ?_
    simp only [List.drop, inRange_cons]
    exact ⟨q3, q4, q5, .nil⟩
  · obtain ⟨h1, h2⟩ := Finset.mem_filter.1 hk
    obtain ⟨i0, i1, i2, i3, i4, i5, rfl, q0, q1, q2, q3, q4, q5⟩ := inRange_six (mem_idxs.1 h1)
    simp only [deconvLin, List.take, List.cons.injEq, and_true] at h2
    obtain ⟨rfl, rfl, rfl⟩ := h2
    rfl
  · obtain ⟨i0, i1, i2, rfl, _⟩ := inRange_three (mem_idxs.1 hk)
    rfl

theorem deconv_grad {w d x : STensor ℝ} (hx : x.shape = [C, H, W]) {q : List Nat} (hq : InRange [nf, C, kw, kh] q) (al mu : ℝ) :
    (deconvWeights sx sy al mu d x w).get q = w.get q + al * (deconvLin nf C H W kw kh sx sy).grad d.get x.get q := by
  obtain ⟨f, c, i, j, rfl, hf, hc, hi, hj⟩ := inRange_four hq
  show sum1 [_, sum1 _, (0 : ℝ) * mu] = _
  rw [sum1_real, sum1_real, sum_allIdx, hx]
  simp only [List.sum_cons, List.sum_nil, zero_mul, add_zero]
  congr 1
  unfold Lin.grad
  rw [Finset.mul_sum]
  refine Finset.sum_nbij' (fun o => c :: o ++ [f, i, j]) (fun k => (k.drop 1).take 2) (fun o ho => ?_) (fun k hk => ?_) (fun o ho => ?_) (fun k hk => ?_) (fun o ho => ?_)
  · obtain ⟨a, b, ha, hb, rfl⟩ := inRange_two (mem_idxs.1 ho)
    refine Finset.mem_filter.2 ⟨mem_idxs.2 ?_, rfl⟩
    simp only [List.cons_append, List.nil_append, inRange_cons]
    exact ⟨hc, ha, hb, hf, hi, hj, .nil⟩
  · obtain ⟨h1, h2⟩ := Finset.mem_filter.1 hk
    obtain ⟨i0, i1, i2, i3, i4, i5, rfl, q0, q1, q2, q3, q4, q5⟩ := inRange_six (mem_idxs.1 h1)
    refine mem_idxs.2 ?_
    simp only [List.drop, List.take]
    exact List.Forall₂.cons q1 (List.Forall₂.cons q2 .nil)
  · obtain ⟨a, b, ha, hb, rfl⟩ := inRange_two (mem_idxs.1 ho)
    rfl
  · obtain ⟨h1, h2⟩ := Finset.mem_filter.1 hk
    obtain ⟨i0, i1, i2, i3, i4, i5, rfl, q0, q1, q2, q3, q4, q5⟩ := inRange_six (mem_idxs.1 h1)
    simp only [deconvLin, List.getD_cons_zero, List.getD_cons_succ, List.cons.injEq, and_true] at h2
    obtain ⟨rfl, rfl, rfl, rfl⟩ := h2
    rfl
  · obtain ⟨a, b, ha, hb, rfl⟩ := inRange_two (mem_idxs.1 ho)
    show d.get [f, a * sx + i, b * sy + j] * al * x.get [c, a, b] = al * (d.get [f, a * sx + i, b * sy + j] * x.get [c, a, b])
    ring

end conv

end Godeep
