import Verif.Props.Train
import Verif.Props.Activation
import Mathlib.Algebra.BigOperators.Field
import Mathlib.Analysis.Calculus.Deriv.Add
import Mathlib.Analysis.Calculus.Deriv.Mul
import Mathlib.Analysis.Calculus.Deriv.Comp
import Mathlib.Analysis.Calculus.Deriv.Pow
/-
  C46: the training step of a dense model is a step of gradient descent, over the real numbers.
-/
set_option linter.unusedSectionVars false

namespace Godeep.Spec
open Godeep Godeep.Props

/-- half the sum of the squares of the differences between `y` and `o` -/
noncomputable def halfSquare (y o : STensor ℝ) : ℝ := ((allIdx o.shape).map fun idx => (y.get idx - o.get idx) ^ 2).sum / 2

/-- tensor `A` with element `idx` replaced by `v` -/
def STensor.put (A : STensor ℝ) (idx : List Nat) (v : ℝ) : STensor ℝ := ⟨A.shape, fun i => if i = idx then v else A.get i⟩

/-- weights `pv` where element `idx` of tensor `c` (0 the weights, 1 the biases) of layer `k` is replaced by `v` -/
def putWeight (pv : List (List (STensor ℝ))) (k c : Nat) (idx : List Nat) (v : ℝ) : List (List (STensor ℝ)) :=
  pv.modify k fun p => p.modify c fun A => A.put idx v

/-- `pv` has the shapes of weights and biases of the dense layers `ds`, on an input of shape `s` -/
def DenseShapes : List (Nat × Activation ℝ) → List Nat → List (List (STensor ℝ)) → Prop
  | [], _, [] => True
  | e :: ds, s, [w, b] :: ps => w.shape = [e.1, size s] ∧ b.shape = [e.1] ∧ DenseShapes ds [e.1] ps
  | _, _, _ => False

end Godeep.Spec

namespace Godeep.Props
open Godeep Spec

theorem real_ops (a b : ℝ) : GoNum.add a b = a + b ∧ GoNum.sub a b = a - b ∧ GoNum.mul a b = a * b ∧ (GoNum.zero : ℝ) = 0 ∧ (GoNum.one : ℝ) = 1 :=
  ⟨rfl, rfl, rfl, rfl, rfl⟩

theorem sum1_real (l : List ℝ) : sum1 l = l.sum := by
  cases l with
  | nil => rfl
  | cons a l =>
    show l.foldl (fun a b => a + b) a = _
    rw [List.sum_cons]
    induction l generalizing a with
    | nil => simp
    | cons b l ih => rw [List.foldl_cons, ih, List.sum_cons]; ring

theorem lsum (n : Nat) (f : Nat → ℝ) : ((List.range n).map f).sum = ∑ i ∈ Finset.range n, f i := by
  induction n with
  | zero => simp
  | succ n ih => rw [List.range_succ, Finset.sum_range_succ, List.map_append, List.sum_append, ih]; simp

theorem idxSum (s : List Nat) (g : List Nat → ℝ) : ((allIdx s).map g).sum = ∑ k ∈ Finset.range (size s), g (unflat s k) := by
  rw [allIdx_eq_map, List.map_map, ← lsum]; rfl

theorem idxSum1 (n : Nat) (g : List Nat → ℝ) : ((allIdx [n]).map g).sum = ∑ k ∈ Finset.range n, g [k] := by
  rw [← lsum]
  have : allIdx [n] = (List.range n).map fun k => [k] := by
    simp only [allIdx, List.map_cons, List.map_nil]
    rw [List.map_eq_flatMap]
  rw [this, List.map_map]; rfl

theorem dense_real (w b x : STensor ℝ) (idx : List Nat) : (denseFn id w b x).get idx =
    (∑ j ∈ Finset.range (size x.shape), x.get (unflat x.shape j) * w.get [idx.getD 0 0, j]) + b.get idx := by
  show sum1 _ = _
  rw [sum1_real, List.sum_append, List.sum_singleton, lsum]
  rfl

theorem backError_real (f' : ℝ → ℝ) (w d z : STensor ℝ) (idx : List Nat) : (backError f' w d z).get idx =
    (∑ j ∈ Finset.range (d.shape.getD 0 0), d.get [j] * w.get [j, offset z.shape idx]) * f' (z.get idx) := by
  show (0 : ℝ) + sum1 _ * f' (z.get idx) = _
  rw [sum1_real, lsum, zero_add]
  rfl

/-- the last of these layers, or the one before them, has derivative 1 -/
def OutLin : (ℝ → ℝ) → List (Nat × Activation ℝ) → Prop
  | f', [] => ∀ u, f' u = 1
  | _, e :: ds => OutLin e.2.derive ds

theorem trainNet_snd_shape (alpha mu : ℝ) (y : STensor ℝ) (as : List (Activation ℝ)) (ts : List Bool) (ps : List (List (STensor ℝ))) (x z : STensor ℝ)
    (f : ℝ → ℝ) (h : x.shape = z.shape) : (trainNet alpha mu y as ts ps x z f).2.shape = z.shape := by
  unfold trainNet
  split <;> first | rfl | exact h

theorem tensor_ext {A : STensor ℝ} {s : List Nat} {g : List Nat → ℝ} (h1 : A.shape = s) (h2 : A.get = g) : A = ⟨s, g⟩ := by
  cases A; subst h1; subst h2; rfl

theorem back_deriv (alpha mu : ℝ) (y : STensor ℝ) (ds : List (Nat × Activation ℝ)) :
    ∀ (ts : List Bool) (ps : List (List (STensor ℝ))) (s : List Nat) (zt : ℝ → List Nat → ℝ) (v : List Nat → ℝ) (f f' : ℝ → ℝ) (t0 : ℝ),
      ts.length = ds.length → DenseShapes ds s ps → (∀ e ∈ ds, ∀ u, HasDerivAt e.2.activate (e.2.derive u) u) → OutLin f' ds →
      (∀ u, HasDerivAt f (f' u) u) → (∀ idx, InRange s idx → HasDerivAt (fun t => zt t idx) (v idx) t0) →
      HasDerivAt (fun t => halfSquare y (netFn (denses ds) ps ⟨s, fun idx => f (zt t idx)⟩))
        (-(∑ k ∈ Finset.range (size s), (trainNet alpha mu y (ds.map Prod.snd) ts ps ⟨s, fun idx => f (zt t0 idx)⟩ ⟨s, zt t0⟩ f').2.get (unflat s k) * v (unflat s k))) t0 := by
  induction ds with
  | nil =>
    intro ts ps s zt v f f' t0 _ _ _ hl hf hz
    have e : (fun t => halfSquare y (netFn (denses []) ps ⟨s, fun idx => f (zt t idx)⟩)) =
        fun t => (∑ k ∈ Finset.range (size s), (y.get (unflat s k) - f (zt t (unflat s k))) ^ 2) / 2 := by
      funext t
      show ((allIdx s).map fun idx => (y.get idx - f (zt t idx)) ^ 2).sum / 2 = _
      rw [idxSum]
    rw [e]
    have hd : HasDerivAt (fun t => (∑ k ∈ Finset.range (size s), (y.get (unflat s k) - f (zt t (unflat s k))) ^ 2) / 2)
        ((∑ k ∈ Finset.range (size s), (2 : ℕ) * (y.get (unflat s k) - f (zt t0 (unflat s k))) ^ 1 * (-(f' (zt t0 (unflat s k)) * v (unflat s k)))) / 2) t0 := by
      refine HasDerivAt.div_const (HasDerivAt.fun_sum fun k hk => ?_) 2
      have hk := unflat_inRange (shape := s) (Finset.mem_range.1 hk)
      have h1 := (hf (zt t0 (unflat s k))).comp t0 (hz _ hk)
      exact (h1.const_sub (y.get (unflat s k))).pow 2
    convert hd using 1
    rw [← Finset.sum_neg_distrib, Finset.sum_div]
    refine Finset.sum_congr rfl fun k _ => ?_
    have e1 : (trainNet alpha mu y (([] : List (Nat × Activation ℝ)).map Prod.snd) ts ps ⟨s, fun idx => f (zt t0 idx)⟩ ⟨s, zt t0⟩ f').2.get (unflat s k) =
        y.get (unflat s k) - f (zt t0 (unflat s k)) := by
      simp [trainNet, (real_ops _ _).2.1]
    rw [e1, hl]
    push_cast
    ring
  | cons e ds ih =>
    intro ts ps s zt v f f' t0 ht hs he hl hf hz
    obtain _ | ⟨t, ts⟩ := ts
    · simp at ht
    obtain _ | ⟨p, ps⟩ := ps
    · exact hs.elim
    rcases p with _ | ⟨w, _ | ⟨b, _ | ⟨c, p⟩⟩⟩
    · exact hs.elim
    · exact hs.elim
    · obtain ⟨hw, hb, hs⟩ := hs
      obtain ⟨n, a⟩ := e
      dsimp only at hw hb hs hl
      have key := ih ts ps [n] (fun t idx => (∑ j ∈ Finset.range (size s), f (zt t (unflat s j)) * w.get [idx.getD 0 0, j]) + b.get idx)
        (fun idx => ∑ j ∈ Finset.range (size s), f' (zt t0 (unflat s j)) * v (unflat s j) * w.get [idx.getD 0 0, j]) a.activate a.derive t0
        (by simpa using ht) hs (fun e h => he e (by simp [h])) hl (he (n, a) (by simp)) (fun idx _ => by
          refine HasDerivAt.add_const (b.get idx) (HasDerivAt.fun_sum fun j hj => ?_)
          have hk := unflat_inRange (shape := s) (Finset.mem_range.1 hj)
          exact ((hf (zt t0 (unflat s j))).comp t0 (hz _ hk)).mul_const _)
      have hz1 : ∀ t, denseFn id w b ⟨s, fun idx => f (zt t idx)⟩ = ⟨[n], fun idx => (∑ j ∈ Finset.range (size s), f (zt t (unflat s j)) * w.get [idx.getD 0 0, j]) + b.get idx⟩ := by
        intro t
        exact tensor_ext hb (funext fun idx => dense_real w b _ idx)
      have e1 : (fun t => halfSquare y (netFn (denses ((n, a) :: ds)) ([w, b] :: ps) ⟨s, fun idx => f (zt t idx)⟩)) =
          fun t => halfSquare y (netFn (denses ds) ps ⟨[n], fun idx => a.activate ((∑ j ∈ Finset.range (size s), f (zt t (unflat s j)) * w.get [idx.getD 0 0, j]) + b.get idx)⟩) := by
        funext t
        have : denseFn a.activate w b ⟨s, fun idx => f (zt t idx)⟩ = (denseFn id w b ⟨s, fun idx => f (zt t idx)⟩).map a.activate := rfl
        show halfSquare y (netFn (denses ds) ps (denseFn a.activate w b ⟨s, fun idx => f (zt t idx)⟩)) = _
        rw [this, hz1]; rfl
      rw [e1]
      convert key using 1
      congr 1
      obtain ⟨r, hr⟩ : ∃ r, r = trainNet alpha mu y (ds.map Prod.snd) ts ps ((denseFn id w b ⟨s, fun idx => f (zt t0 idx)⟩).map a.activate) (denseFn id w b ⟨s, fun idx => f (zt t0 idx)⟩) a.derive := ⟨_, rfl⟩
      have e2 : (trainNet alpha mu y (((n, a) :: ds).map Prod.snd) (t :: ts) ([w, b] :: ps) ⟨s, fun idx => f (zt t0 idx)⟩ ⟨s, zt t0⟩ f').2 =
          backError f' w r.2 ⟨s, zt t0⟩ := by rw [hr]; rfl
      have hsh : r.2.shape = [n] := by rw [hr]; exact (trainNet_snd_shape _ _ _ _ _ _ _ _ _ (by rfl)).trans hb
      rw [e2]
      have e3 : trainNet alpha mu y (ds.map Prod.snd) ts ps ⟨[n], fun idx => a.activate ((∑ j ∈ Finset.range (size s), f (zt t0 (unflat s j)) * w.get [idx.getD 0 0, j]) + b.get idx)⟩
          ⟨[n], fun idx => (∑ j ∈ Finset.range (size s), f (zt t0 (unflat s j)) * w.get [idx.getD 0 0, j]) + b.get idx⟩ a.derive = r := by rw [hr, hz1]; rfl
      rw [e3]
      have e4 : ∀ g : List Nat → ℝ, ∑ k ∈ Finset.range (size [n]), g (unflat [n] k) = ∑ i ∈ Finset.range n, g [i] := fun g => by
        rw [← idxSum, idxSum1]
      rw [e4 fun idx => r.2.get idx * ∑ j ∈ Finset.range (size s), f' (zt t0 (unflat s j)) * v (unflat s j) * w.get [idx.getD 0 0, j]]
      simp only [backError_real, hsh, List.getD_cons_zero, Finset.mul_sum, Finset.sum_mul]
      rw [Finset.sum_comm]
      refine Finset.sum_congr rfl fun i _ => Finset.sum_congr rfl fun k hk => ?_
      rw [offset_unflat (Finset.mem_range.1 hk)]
      ring
    · exact hs.elim

theorem first_deriv (alpha mu : ℝ) (y x w b : STensor ℝ) (n : Nat) (a : Activation ℝ) (ds : List (Nat × Activation ℝ)) (ts : List Bool)
    (ps : List (List (STensor ℝ))) (ht : ts.length = ds.length) (hs : DenseShapes ds [n] ps)
    (he : ∀ e ∈ (n, a) :: ds, ∀ u, HasDerivAt e.2.activate (e.2.derive u) u) (hl : OutLin a.derive ds) (hb : b.shape = [n])
    (wt bt : ℝ → STensor ℝ) (t0 : ℝ) (h0 : wt t0 = w ∧ bt t0 = b) (hbs : ∀ t, (bt t).shape = [n]) (v : Nat → ℝ)
    (hd : ∀ i < n, HasDerivAt (fun t => (∑ j ∈ Finset.range (size x.shape), x.get (unflat x.shape j) * (wt t).get [i, j]) + (bt t).get [i]) (v i) t0) :
    HasDerivAt (fun t => halfSquare y (netFn (denses ((n, a) :: ds)) ([wt t, bt t] :: ps) x))
      (-(∑ i ∈ Finset.range n, (trainNet alpha mu y (ds.map Prod.snd) ts ps ((denseFn id w b x).map a.activate) (denseFn id w b x) a.derive).2.get [i] * v i)) t0 := by
  have key := back_deriv alpha mu y ds ts ps [n] (fun t idx => (denseFn id (wt t) (bt t) x).get idx) (fun idx => v (idx.getD 0 0)) a.activate a.derive t0
    ht hs (fun e h => he e (by simp [h])) hl (he (n, a) (by simp)) (fun idx hi => by
      obtain ⟨i, hi2, rfl⟩ := inRange_one hi
      simp only [dense_real]
      exact hd i hi2)
  have e1 : (fun t => halfSquare y (netFn (denses ((n, a) :: ds)) ([wt t, bt t] :: ps) x)) =
      fun t => halfSquare y (netFn (denses ds) ps ⟨[n], fun idx => a.activate ((denseFn id (wt t) (bt t) x).get idx)⟩) := by
    funext t
    show halfSquare y (netFn (denses ds) ps (denseFn a.activate (wt t) (bt t) x)) = _
    rw [tensor_ext (A := denseFn a.activate (wt t) (bt t) x) (hbs t) rfl]; rfl
  rw [e1]
  convert key using 1
  congr 1
  have e3 : trainNet alpha mu y (ds.map Prod.snd) ts ps ⟨[n], fun idx => a.activate ((denseFn id (wt t0) (bt t0) x).get idx)⟩ ⟨[n], fun idx => (denseFn id (wt t0) (bt t0) x).get idx⟩ a.derive =
      trainNet alpha mu y (ds.map Prod.snd) ts ps ((denseFn id w b x).map a.activate) (denseFn id w b x) a.derive := by
    rw [h0.1, h0.2]
    rw [← tensor_ext (A := denseFn id w b x) hb rfl]
    congr 1
    exact (tensor_ext (A := (denseFn id w b x).map a.activate) hb rfl).symm
  rw [e3]
  have e4 : ∀ g : List Nat → ℝ, ∑ k ∈ Finset.range (size [n]), g (unflat [n] k) = ∑ i ∈ Finset.range n, g [i] := fun g => by
    rw [← idxSum, idxSum1]
  exact (e4 fun idx => (trainNet alpha mu y (ds.map Prod.snd) ts ps ((denseFn id w b x).map a.activate) (denseFn id w b x) a.derive).2.get idx * v (idx.getD 0 0)).symm

theorem weight_deriv (alpha mu : ℝ) (y : STensor ℝ) (ds : List (Nat × Activation ℝ)) :
    ∀ (ts : List Bool) (ps : List (List (STensor ℝ))) (x z : STensor ℝ) (f f' : ℝ → ℝ) (k c : Nat) (p : List (STensor ℝ)) (A : STensor ℝ) (idx : List Nat),
      ts.length = ds.length → DenseShapes ds x.shape ps → (∀ e ∈ ds, ∀ u, HasDerivAt e.2.activate (e.2.derive u) u) → OutLin f ds →
      ts[k]? = some true → ps[k]? = some p → p[c]? = some A → InRange A.shape idx →
      ∃ g A', HasDerivAt (fun t => halfSquare y (netFn (denses ds) (putWeight ps k c idx t) x)) g (A.get idx) ∧
        ((trainNet alpha mu y (ds.map Prod.snd) ts ps x z f').1[k]?.bind (·[c]?)) = some A' ∧ A'.shape = A.shape ∧
        A'.get idx = A.get idx - alpha * g := by
  induction ds with
  | nil =>
    intro ts ps x z f f' k c p A idx ht hs he hl hk
    obtain rfl : ts = [] := by simpa using ht
    simp at hk
  | cons e ds ih =>
    intro ts ps x z f f' k c p A idx ht hs he hl hk hp hc hi
    obtain _ | ⟨t, ts⟩ := ts
    · simp at ht
    obtain _ | ⟨q, ps⟩ := ps
    · exact hs.elim
    rcases q with _ | ⟨w, _ | ⟨b, _ | ⟨r, q⟩⟩⟩
    · exact hs.elim
    · exact hs.elim
    · obtain ⟨hw, hb, hs⟩ := hs
      obtain ⟨n, a⟩ := e
      dsimp only at hw hb hs
      have ht2 : ts.length = ds.length := by simpa using ht
      cases k with
      | zero =>
        simp only [List.getElem?_cons_zero, Option.some.injEq] at hk hp
        subst hk hp
        obtain ⟨r, hr⟩ : ∃ r, r = trainNet alpha mu y (ds.map Prod.snd) ts ps ((denseFn id w b x).map a.activate) (denseFn id w b x) a.derive := ⟨_, rfl⟩
        have hn : (trainNet alpha mu y (((n, a) :: ds).map Prod.snd) (true :: ts) ([w, b] :: ps) x z f').1[0]? =
            some [newWeights alpha mu r.2 x w, newBias alpha mu r.2 b] := by rw [hr]; rfl
        rw [hn]
        rcases c with _ | _ | c
        · simp only [List.getElem?_cons_zero, Option.some.injEq] at hc
          subst hc
          rw [hw] at hi
          obtain ⟨i, j, hi2, hj, rfl⟩ := inRange_two hi
          refine ⟨_, _, first_deriv alpha mu y x w b n a ds ts ps ht2 hs he hl hb (fun t => w.put [i, j] t) (fun _ => b) (w.get [i, j])
            ⟨?_, rfl⟩ (fun _ => hb) (fun i' => if i' = i then x.get (unflat x.shape j) else 0) (fun i' hi' => ?_), rfl, rfl, ?_⟩
          · refine (tensor_ext rfl (funext fun q => ?_)).symm
            split
            · next h => rw [h]
            · rfl
          · refine HasDerivAt.add_const _ ?_
            have hsum : (if i' = i then x.get (unflat x.shape j) else 0) = ∑ j' ∈ Finset.range (size x.shape), x.get (unflat x.shape j') * (if [i', j'] = [i, j] then 1 else 0) := by
              simp only [List.cons.injEq, and_true]
              split
              · next h =>
                simp only [h, true_and, mul_ite, mul_one, mul_zero]
                rw [Finset.sum_ite_eq' _ _ _, if_pos (Finset.mem_range.2 hj)]
              · next h => simp [h]
            rw [hsum]
            refine HasDerivAt.fun_sum fun j' _ => HasDerivAt.const_mul _ ?_
            show HasDerivAt (fun t => if [i', j'] = [i, j] then t else w.get [i', j']) _ _
            split
            · exact hasDerivAt_id _
            · exact hasDerivAt_const _ _
          · rw [← hr]
            show sum1 [w.get [i, j], 0 * mu, r.2.get [i] * alpha * x.get (unflat x.shape j)] = _
            rw [sum1_real]
            simp only [mul_ite, mul_zero, Finset.sum_ite_eq', Finset.mem_range, hi2, if_true, List.sum_cons, List.sum_nil]
            ring
        · simp only [List.getElem?_cons_succ, List.getElem?_cons_zero, Option.some.injEq] at hc
          subst hc
          rw [hb] at hi
          obtain ⟨i, hi2, rfl⟩ := inRange_one hi
          refine ⟨_, _, first_deriv alpha mu y x w b n a ds ts ps ht2 hs he hl hb (fun _ => w) (fun t => b.put [i] t) (b.get [i])
            ⟨rfl, ?_⟩ (fun _ => hb) (fun i' => if i' = i then 1 else 0) (fun i' hi' => ?_), rfl, rfl, ?_⟩
          · refine (tensor_ext rfl (funext fun q => ?_)).symm
            split
            · next h => rw [h]
            · rfl
          · have : (if i' = i then (1 : ℝ) else 0) = 0 + (if [i'] = [i] then 1 else 0) := by simp
            rw [this]
            refine (hasDerivAt_const _ _).add ?_
            show HasDerivAt (fun t => if [i'] = [i] then t else b.get [i']) _ _
            split
            · exact hasDerivAt_id _
            · exact hasDerivAt_const _ _
          · rw [← hr]
            show sum1 [b.get [i], 0 * mu, r.2.get [i] * alpha] = _
            rw [sum1_real]
            simp only [mul_ite, mul_zero, Finset.sum_ite_eq', Finset.mem_range, hi2, if_true, List.sum_cons, List.sum_nil]
            ring
        · simp at hc
      | succ k =>
        simp only [List.getElem?_cons_succ] at hk hp
        obtain ⟨g, A', h1, h2, h3, h4⟩ := ih ts ps ((denseFn id w b x).map a.activate) (denseFn id w b x) a.derive a.derive k c p A idx ht2
          (by rw [show ((denseFn id w b x).map a.activate).shape = [n] from hb]; exact hs) (fun e h => he e (by simp [h])) hl hk hp hc hi
        exact ⟨g, A', h1, h2, h3, h4⟩
    · exact hs.elim

theorem denseShapes_of (ds : List (Nat × Activation ℝ)) : ∀ (s : List Nat) (pv : List (List (STensor ℝ))), pv.length = ds.length →
    (∀ k e, (denses ds)[k]? = some e → (pv.getD k []).map STensor.shape = e.paramShapes (outShapes ((denses ds).take k) s)) → DenseShapes ds s pv := by
  induction ds with
  | nil =>
    intro s pv hl _
    obtain rfl : pv = [] := by simpa using hl
    trivial
  | cons e ds ih =>
    intro s pv hl h
    obtain _ | ⟨p, ps⟩ := pv
    · simp at hl
    have h0 := h 0 _ rfl
    have h0 : p.map STensor.shape = [[e.1, size s], [e.1]] := h0
    rcases p with _ | ⟨w, _ | ⟨b, _ | ⟨r, q⟩⟩⟩
    · simp at h0
    · simp at h0
    · simp only [List.map_cons, List.map_nil, List.cons.injEq, and_true] at h0
      exact ⟨h0.1, h0.2, ih [e.1] ps (by simpa using hl) fun k e' hk => h (k + 1) e' hk⟩
    · simp at h0

theorem shapes_eq {h : Heap ℝ} {ms : List (List Mat)} {pv pv' : List (List (STensor ℝ))} (a : List.Forall₂ (List.Forall₂ (Holds h)) ms pv)
    (b : List.Forall₂ (List.Forall₂ (Holds h)) ms pv') : pv.map (·.map STensor.shape) = pv'.map (·.map STensor.shape) := by
  have one : ∀ {m : List Mat} {p p' : List (STensor ℝ)}, List.Forall₂ (Holds h) m p → List.Forall₂ (Holds h) m p' → p.map STensor.shape = p'.map STensor.shape := by
    intro m p p' a
    induction a generalizing p' with
    | nil => intro b; cases b; rfl
    | cons h1 _ ih =>
      intro b
      cases b with
      | cons h2 b => rw [List.map_cons, List.map_cons, ih b, ← h1.shape, ← h2.shape]
  induction a generalizing pv' with
  | nil => cases b; rfl
  | cons h1 _ ih =>
    cases b with
    | cons h2 b => rw [List.map_cons, List.map_cons, ih b, one h1 h2]

theorem outLin_last {ds : List (Nat × Activation ℝ)} : ∀ {f' : ℝ → ℝ}, ds.getLast?.map Prod.snd = some .linear → OutLin f' ds := by
  induction ds with
  | nil => intro f' h; simp at h
  | cons e ds ih =>
    intro f' h
    cases ds with
    | nil =>
      simp only [List.getLast?_singleton, Option.map_some, Option.some.injEq] at h
      intro u
      rw [h]; rfl
    | cons e' ds => exact ih (f' := f') h

theorem real_law : GoNum.eq (GoNum.add GoNum.zero GoNum.one) (GoNum.zero : ℝ) = false ∧ GoNum.lt GoNum.one (GoNum.add GoNum.zero GoNum.one : ℝ) = false := by
  constructor
  · show decide ((0 : ℝ) + 1 = 0) = false
    simp
  · show decide ((1 : ℝ) < 0 + 1) = false
    simp

/-- C46: Over the real numbers, in a sequential model of dense layers (of any depth, any widths but zero) whose last
activation is linear and whose other activations are differentiable, with their declared derivatives.  The model is
made, compiled, used, prepared for training, used and trained in any way.  In the state `a` so reached, with weights
and biases `pv`, let `L` be half the squared distance between the target `y` and the output of the network for input
`x`.  `TrainOne` adds to every element of the weights and biases of every trainable layer exactly `-alpha` times the
partial derivative of `L` with respect to this element, at `pv`.  -/
theorem C46_gradient {shape : List Nat} {ds : List (Nat × Activation ℝ)} (hwid : ∀ e ∈ ds, 0 < e.1)
    (hder : ∀ e ∈ ds, ∀ u, HasDerivAt e.2.activate (e.2.derive u) u) (hlin : ds.getLast?.map Prod.snd = some .linear)
    {w0 : World ℝ} (hpos : 0 < w0.store.heap.next) :
    ∃ m w1, compiled shape (denses ds) w0 = .ok m w1 ∧ ∀ wa, Steps w0 w1 m w1 wa →
      ∃ wb, NetM.compileBP m wa = .ok () wb ∧ ∀ a, TSteps w0 w1 wa wb m wb a →
        (∃ pv ts, HasParams a m pv ∧ Trainable a m ts ∧ DenseShapes ds shape pv ∧ ts.length = ds.length) ∧
        ∀ tx ty x y alpha momentum pv ts, Sample w0 w1 wa wb a tx x → Sample w0 w1 wa wb a ty y →
          x.shape = shape → y.shape = outShapes (denses ds) shape → HasParams a m pv → Trainable a m ts →
          ∃ r b pv', NetM.trainOne m tx ty alpha momentum a = .ok r b ∧ HasParams b m pv' ∧
            ∀ k c p A idx, ts[k]? = some true → pv[k]? = some p → p[c]? = some A → InRange A.shape idx →
              ∃ g p' A', HasDerivAt (fun v => halfSquare y (netFn (denses ds) (putWeight pv k c idx v) x)) g (A.get idx) ∧
                pv'[k]? = some p' ∧ p'[c]? = some A' ∧ A'.get idx = A.get idx - alpha * g := by
  have hne : ds ≠ [] := by rintro rfl; simp at hlin
  obtain ⟨m, w1, e1, d, L, acts, D, H⟩ := prepared (shape := shape) (w0 := w0) real_law.1 real_law.2 hne hwid hpos
  refine ⟨m, w1, e1, fun wa s => ?_⟩
  obtain ⟨wb, e, e2, N⟩ := H wa s
  refine ⟨wb, e2, fun a hs => ?_⟩
  have A := tlive_steps N hs
  obtain ⟨pv0, hp0, hl0, hs0⟩ := A.live.someParams N.net.made
  have hl0 : pv0.length = ds.length := by rw [hl0, List.length_map]
  have hd0 := denseShapes_of ds shape pv0 hl0 hs0
  refine ⟨⟨pv0, _, hp0, (A.flags N).2 rfl, hd0, by simp⟩, fun tx ty x y alpha momentum pv ts sx sy hx hy hp ht => ?_⟩
  obtain ⟨h', r1, r2, r3⟩ := N.trainOne A sx sy hx hy alpha momentum hp
  rw [A.flags N] at ht
  subst ht
  refine ⟨_, _, _, r1, r3, fun k c p B idx hk hpk hc hi => ?_⟩
  have hsh := shapes_eq ((A.params N).1 hp) ((A.params N).1 hp0)
  have hlen : pv.length = ds.length := by rw [← hl0, ← List.length_map (f := (·.map STensor.shape)), hsh, List.length_map]
  have hds : DenseShapes ds shape pv := by
    refine denseShapes_of ds shape pv hlen fun k e hk => ?_
    rw [← hs0 k e hk]
    have h := congrArg (fun l => l.getD k []) hsh
    simp only [List.getD_eq_getElem?_getD, List.getElem?_map] at h ⊢
    cases h1 : pv[k]? <;> cases h2 : pv0[k]? <;> simpa [h1, h2] using h
  obtain ⟨g, A', q1, q2, _, q3⟩ := weight_deriv alpha momentum y ds _ pv x x id (Activation.linear : Activation ℝ).derive k c p B idx (by simp)
    (by rw [hx]; exact hds) hder (outLin_last hlin) hk hpk hc hi
  obtain ⟨p', q4, q5⟩ := Option.bind_eq_some_iff.1 q2
  exact ⟨g, p', A', q1, q4, q5, q3⟩

attribute [local irreducible] compiled NetM.compileBP NetM.trainOne netFn trainStep in
/-- The hypotheses of C46 are met: a hidden layer of three sigmoid and one of two hyperbolic tangent units, a linear output -/
example : ∃ m w1 wb pv ts, compiled [1] (denses [(3, .sigmoid ℝ), (2, .hyperTan ℝ), (1, .linear)]) (worldOf [1] (2 : ℝ)) = .ok m w1 ∧
    NetM.compileBP m w1 = .ok () wb ∧ HasParams wb m pv ∧ Trainable wb m ts ∧ ts.length = 3 ∧
    ∃ r b pv', NetM.trainOne m 0 0 (1 / 2) 0 wb = .ok r b ∧ HasParams b m pv' := by
  have hw : ∀ e ∈ ([(3, .sigmoid ℝ), (2, .hyperTan ℝ), (1, .linear)] : List (Nat × Activation ℝ)), 0 < e.1 := by simp
  have hd : ∀ e ∈ ([(3, .sigmoid ℝ), (2, .hyperTan ℝ), (1, .linear)] : List (Nat × Activation ℝ)), ∀ u, HasDerivAt e.2.activate (e.2.derive u) u := by
    intro e he u
    simp only [List.mem_cons, List.not_mem_nil, or_false] at he
    rcases he with rfl | rfl | rfl
    · exact C55_sigmoid u
    · exact C55_tanh u
    · exact hasDerivAt_id u
  obtain ⟨m, w1, e1, H⟩ := C46_gradient (shape := [1]) hw hd rfl (w0 := worldOf [1] (2 : ℝ)) (by decide)
  obtain ⟨m', w1', e1', H1⟩ := C41_first (w0 := worldOf [1] (2 : ℝ)) (shape := [1]) real_law.1 real_law.2 (by simp) hw (by decide)
  obtain ⟨m2, w12, e12, u⟩ := worldOf_user real_law.1 (shape := [1]) (ls := denses [(3, .sigmoid ℝ), (2, .hyperTan ℝ), (1, .linear)])
    (by simp [Fits, LSpec.fits]) (2 : ℝ)
  rw [e1] at e1' e12
  cases e1'; cases e12
  obtain ⟨wb, e2, H⟩ := H w1 .none
  obtain ⟨wb', e2', _, _, _, H1⟩ := H1 w1 .none
  rw [e2] at e2'
  cases e2'
  obtain ⟨⟨pv, ts, hp, ht, _, hl⟩, H⟩ := H wb .none
  obtain ⟨M, W, e0, d, L, acts, D⟩ := wp_total (dense_made (w0 := worldOf [1] (2 : ℝ)) (shape := [1])
    (ds := [(3, .sigmoid ℝ), (2, .hyperTan ℝ), (1, .linear)]) real_law.1 real_law.2 (by decide))
  have e0 : compiled [1] (denses [(3, .sigmoid ℝ), (2, .hyperTan ℝ), (1, .linear)]) (worldOf [1] (2 : ℝ)) = .ok M W := e0
  rw [e1] at e0
  cases e0
  have s := H1 0 _ u (D.made.apart.ext.frozen 0 (by decide) (frozen_leaf rfl)).1
  obtain ⟨r, b, pv', r1, r2, _⟩ := H 0 0 _ _ (1 / 2) 0 pv ts s s rfl rfl hp ht
  exact ⟨m, w1, wb, pv, ts, e1, e2, hp, ht, hl, r, b, pv', r1, r2⟩

end Godeep.Props
