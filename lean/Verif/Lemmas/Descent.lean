import Verif.Spec.Descent
import Verif.Lemmas.Lin
import Verif.Lemmas.GConv2
import Verif.Lemmas.FFPool
import Verif.Props.SoftMaxField
import Mathlib.Analysis.SpecialFunctions.Log.Deriv
/-
  The derivatives of sequential networks over the real numbers.
-/
set_option linter.unusedSectionVars false

namespace Godeep
open Spec Props

/-- how a layer maps a movement of its input to one of its output, and back-propagation is the transposed map -/
def Exact (l : LSpec ℝ) (p : List (STensor ℝ)) (x D : STensor ℝ) : Prop :=
  ∀ (t0 : ℝ) (xt : ℝ → STensor ℝ) (v : List Nat → ℝ), xt t0 = x → (∀ t, (xt t).shape = x.shape) →
    (∀ i, InRange x.shape i → HasDerivAt (fun t => (xt t).get i) (D.get i * v i) t0) →
    ∃ v2 : List Nat → ℝ, (∀ t, (l.fn p (xt t)).shape = l.outShape x.shape) ∧
      (∀ o, InRange (l.outShape x.shape) o → HasDerivAt (fun t => (l.fn p (xt t)).get o) ((l.der p x D).get o * v2 o) t0) ∧
      ∀ d r : STensor ℝ, d.shape = l.outShape x.shape → r.shape = l.outShape x.shape →
        ∑ o ∈ idxs (l.outShape x.shape), (if l.isFlatten then d else r).get o * v2 o = ∑ i ∈ idxs x.shape, (l.back p d r x D).get i * v i

/-- the errors that a layer computes its step with -/
def _root_.Godeep.Spec.LSpec.errs : LSpec ℝ → STensor ℝ → STensor ℝ → STensor ℝ
  | .dense _ _, _, r => r
  | _, d, _ => d

structure IsLin (l : LSpec ℝ) (s : List Nat) (L : Lin) (a : Activation ℝ) : Prop where
  flat : l.isFlatten = false
  act : l.actOf = some a
  inp : ∀ k ∈ L.E, InRange s (L.inp k)
  out : ∀ k ∈ L.E, InRange (l.outShape s) (L.out k)
  par : ∃ ws, l.paramShapes s = [ws, l.outShape s] ∧ ∀ k ∈ L.E, InRange ws (L.wt k)
  fnS : ∀ w b x, b.shape = l.outShape s → (l.fn [w, b] x).shape = l.outShape s
  fn : ∀ w b x, x.shape = s → ∀ o, InRange (l.outShape s) o → (l.fn [w, b] x).get o = a.activate (L.val w.get b.get x.get o)
  der : ∀ w b x D, x.shape = s → ∀ o, InRange (l.outShape s) o → (l.der [w, b] x D).get o = a.derive (L.val w.get b.get x.get o)
  back : ∀ w b d r x D, x.shape = s → r.shape = l.outShape s → ∀ i, InRange s i → (l.back [w, b] d r x D).get i = L.back w.get r.get i * D.get i
  smooth : ∀ w b x, x.shape = s → l.SmoothAt [w, b] x → ∀ o, InRange (l.outShape s) o →
    HasDerivAt a.activate (a.derive (L.val w.get b.get x.get o)) (L.val w.get b.get x.get o)
  grad : ∀ w b ms d r x al mu, x.shape = s → d.shape = l.outShape s → r.shape = l.outShape s → ms.map STensor.shape = l.momShapes s →
    l.paramShapes s = [w.shape, b.shape] → ∃ A B, l.learned al mu [w, b] ms d r x = [A, B] ∧ A.shape = w.shape ∧ B.shape = b.shape ∧
      (∀ q, InRange w.shape q → A.get q = w.get q + al * L.grad (l.errs d r).get x.get q) ∧
      ∀ q, B.get q = b.get q + al * (l.errs d r).get q + mu * lastChange [ms] 0 1 q
  zero : ∀ w b ms d r x, ms.map STensor.shape = l.momShapes s → l.learned 0 0 [w, b] ms d r x = [w, b]

theorem isLin_dense (n : Nat) (a : Activation ℝ) (s : List Nat) : IsLin (.dense n a) s (denseLin n s) a where
  flat := rfl
  act := rfl
  inp := denseLin_in
  out := denseLin_out
  par := ⟨_, rfl, fun k hk => by
    obtain ⟨i, r, rfl, h1, h2⟩ := inRange_cons_left (mem_idxs.1 hk)
    simp only [denseLin, inRange_cons]
    exact ⟨h1, offset_lt h2, .nil⟩⟩
  fnS := fun w b x h => h
  fn := fun w b x hx o ho => by subst hx; exact congrArg a.activate (dense_val ho)
  der := fun w b x D hx o ho => by subst hx; exact congrArg a.derive (dense_val ho)
  back := fun w b d r x D hx hr i hi => by subst hx; exact dense_back hr hi
  smooth := fun w b x hx h o ho => by
    subst hx
    have := h o ho
    rwa [show ((LSpec.dense n a).neta [w, b] x).get o = (denseLin n x.shape).val w.get b.get x.get o from dense_val ho] at this
  grad := fun w b ms d r x al mu hx hd hr hm hp => by
    subst hx
    obtain rfl : ms = [] := by simpa [LSpec.momShapes] using hm
    refine ⟨_, _, rfl, rfl, rfl, fun q hq => ?_, fun q => ?_⟩
    · simp only [LSpec.paramShapes, List.cons.injEq, and_true] at hp
      rw [← hp.1] at hq
      obtain ⟨j, m, hj, hm, rfl⟩ := inRange_two hq
      rw [dense_grad _ _ hj hm]
      show sum1 [w.get [j, m], 0 * mu, r.get [j] * al * x.get (unflat x.shape m)] = _
      rw [sum1_real]
      simp only [List.sum_cons, List.sum_nil, LSpec.errs]
      ring
    · show sum1 [b.get q, 0 * mu, r.get q * al] = _
      rw [sum1_real]
      simp only [List.sum_cons, List.sum_nil, LSpec.errs]
      show _ = _ + mu * 0
      ring
  zero := fun w b ms d r x hm => by
    obtain rfl : ms = [] := by simpa [LSpec.momShapes] using hm
    have e1 : newWeights 0 0 r x w = w := tensor_ext rfl (funext fun q => by
      show sum1 [w.get q, 0 * 0, r.get _ * 0 * _] = _
      rw [sum1_real]; simp)
    have e2 : newBias 0 0 r b = b := tensor_ext rfl (funext fun q => by
      show sum1 [b.get q, 0 * 0, r.get _ * 0] = _
      rw [sum1_real]; simp)
    show [newWeights 0 0 r x w, newBias 0 0 r b] = _
    rw [e1, e2]

theorem biasStep_real (al mu : ℝ) (b d M : STensor ℝ) (q : List Nat) : (b.zip GoNum.add (biasStep al mu d M)).get q = b.get q + al * d.get q + mu * M.get q := by
  show b.get q + (d.get q * al + M.get q * mu) = _
  ring

theorem getD3 {s : List Nat} (h : s.length = 3) : s = [s.getD 0 0, s.getD 1 0, s.getD 2 0] := by
  obtain ⟨a, b, c, rfl⟩ := List.length_eq_three.1 h
  rfl

theorem isLin_conv (nf kw kh sx sy : Nat) (a : Activation ℝ) {s : List Nat} (hf : (LSpec.conv nf kw kh sx sy a).fits s) :
    IsLin (.conv nf kw kh sx sy a) s (convLin nf (s.getD 0 0) ((s.getD 1 0 - kw) / sx + 1) ((s.getD 2 0 - kh) / sy + 1) kw kh sx sy) a where
  flat := rfl
  act := rfl
  inp := by
    obtain ⟨h3, _, _, _, _, h1, h2, _⟩ := hf
    have := convLin_in (nf := nf) (C := s.getD 0 0) (A := (s.getD 1 0 - kw) / sx + 1) (B := (s.getD 2 0 - kh) / sy + 1) (H := s.getD 1 0) (W := s.getD 2 0)
      (kw := kw) (kh := kh) (sx := sx) (sy := sy) (fun a i ha hi => window_lt h1 ha hi) (fun a i ha hi => window_lt h2 ha hi)
    rwa [← getD3 h3] at this
  out := convLin_out
  par := ⟨_, rfl, fun k hk => by
    obtain ⟨i0, i1, i2, i3, i4, i5, rfl, h0, h1, h2, h3, h4, h5⟩ := inRange_six (mem_idxs.1 hk)
    simp only [convLin, inRange_cons]
    exact ⟨h0, h3, h4, h5, .nil⟩⟩
  fnS := fun w b x h => h
  fn := fun w b x hx o ho => by subst hx; exact congrArg a.activate (conv_val rfl ho)
  der := fun w b x D hx o ho => by subst hx; exact congrArg a.derive (conv_val rfl ho)
  back := fun w b d r x D hx hr i hi => by
    subst hx
    rw [getD3 hf.1] at hi
    exact conv_back rfl hr hi
  smooth := fun w b x hx h o ho => by
    subst hx
    have := h o ho
    rwa [show ((LSpec.conv nf kw kh sx sy a).neta [w, b] x).get o = _ from conv_val rfl ho] at this
  grad := fun w b ms d r x al mu hx hd hr hm hp => by
    subst hx
    obtain ⟨M, rfl, hM⟩ : ∃ M, ms = [M] ∧ M.shape = _ := by simpa [LSpec.momShapes, List.map_eq_cons_iff] using hm
    simp only [LSpec.paramShapes, List.cons.injEq, and_true] at hp
    refine ⟨_, _, rfl, rfl, rfl, fun q hq => ?_, fun q => biasStep_real al mu b d M q⟩
    rw [← hp.1] at hq
    exact conv_grad ⟨by rw [hd]; rfl, by rw [hd]; rfl⟩ hq al mu
  zero := fun w b ms d r x hm => by
    obtain ⟨M, rfl, hM⟩ : ∃ M, ms = [M] ∧ M.shape = _ := by simpa [LSpec.momShapes, List.map_eq_cons_iff] using hm
    have e1 : convWeights sx sy 0 0 d x w = w := tensor_ext rfl (funext fun q => by
      show sum1 [w.get q, sum1 (List.map (fun o => _ * 0 * _) _), 0 * 0] = _
      rw [sum1_real, sum1_real]; simp)
    have e2 : b.zip GoNum.add (biasStep 0 0 d M) = b := tensor_ext rfl (funext fun q => by
      rw [biasStep_real]; simp)
    show [convWeights sx sy 0 0 d x w, b.zip GoNum.add (biasStep 0 0 d M)] = _
    rw [e1, e2]

theorem deconv_lt {H k s p x : Nat} (hp : p < H) (hx : x < k) : p * s + x < (H - 1) * s + k := by
  have : p * s ≤ (H - 1) * s := Nat.mul_le_mul_right s (by omega)
  omega

theorem isLin_deconv (nf kw kh sx sy : Nat) (a : Activation ℝ) {s : List Nat} (hf : (LSpec.deconv nf kw kh sx sy a).fits s) :
    IsLin (.deconv nf kw kh sx sy a) s (deconvLin nf (s.getD 0 0) (s.getD 1 0) (s.getD 2 0) kw kh sx sy) a where
  flat := rfl
  act := rfl
  inp := by
    have := deconvLin_in (nf := nf) (C := s.getD 0 0) (H := s.getD 1 0) (W := s.getD 2 0) (kw := kw) (kh := kh) (sx := sx) (sy := sy)
    rwa [← getD3 hf.1] at this
  out := deconvLin_out (fun _ _ ha hi => deconv_lt ha hi) (fun _ _ ha hi => deconv_lt ha hi)
  par := ⟨_, rfl, fun k hk => by
    obtain ⟨i0, i1, i2, i3, i4, i5, rfl, h0, h1, h2, h3, h4, h5⟩ := inRange_six (mem_idxs.1 hk)
    simp only [deconvLin, inRange_cons]
    exact ⟨h3, h0, h4, h5, .nil⟩⟩
  fnS := fun w b x h => h
  fn := fun w b x hx o ho => by subst hx; exact congrArg a.activate (deconv_val (getD3 hf.1) ho)
  der := fun w b x D hx o ho => by subst hx; exact congrArg a.derive (deconv_val (getD3 hf.1) ho)
  back := fun w b d r x D hx hr i hi => by
    subst hx
    rw [getD3 hf.1] at hi
    exact deconv_back (by rw [hr]; rfl) hi
  smooth := fun w b x hx h o ho => by
    subst hx
    have := h o ho
    rwa [show ((LSpec.deconv nf kw kh sx sy a).neta [w, b] x).get o = _ from deconv_val (getD3 hf.1) ho] at this
  grad := fun w b ms d r x al mu hx hd hr hm hp => by
    subst hx
    obtain ⟨M, rfl, hM⟩ : ∃ M, ms = [M] ∧ M.shape = _ := by simpa [LSpec.momShapes, List.map_eq_cons_iff] using hm
    simp only [LSpec.paramShapes, List.cons.injEq, and_true] at hp
    refine ⟨_, _, rfl, rfl, rfl, fun q hq => ?_, fun q => biasStep_real al mu b d M q⟩
    rw [← hp.1] at hq
    exact deconv_grad (getD3 hf.1) hq al mu
  zero := fun w b ms d r x hm => by
    obtain ⟨M, rfl, hM⟩ : ∃ M, ms = [M] ∧ M.shape = _ := by simpa [LSpec.momShapes, List.map_eq_cons_iff] using hm
    have e1 : deconvWeights sx sy 0 0 d x w = w := tensor_ext rfl (funext fun q => by
      show sum1 [w.get q, sum1 (List.map (fun o => _ * 0 * _) _), 0 * 0] = _
      rw [sum1_real, sum1_real]; simp)
    have e2 : b.zip GoNum.add (biasStep 0 0 d M) = b := tensor_ext rfl (funext fun q => by
      rw [biasStep_real]; simp)
    show [deconvWeights sx sy 0 0 d x w, b.zip GoNum.add (biasStep 0 0 d M)] = _
    rw [e1, e2]

theorem IsLin.exact {l : LSpec ℝ} {L : Lin} {a : Activation ℝ} {w b x D : STensor ℝ} (I : IsLin l x.shape L a) (hb : b.shape = l.outShape x.shape)
    (hs : l.SmoothAt [w, b] x) : Exact l [w, b] x D := by
  intro t0 xt v h0 hsh hv
  refine ⟨fun o => ∑ k ∈ L.E with L.out k = o, (D.get (L.inp k) * v (L.inp k)) * w.get (L.wt k), fun t => I.fnS w b _ hb, fun o ho => ?_, fun d r hd hr => ?_⟩
  · have e : (fun t => (l.fn [w, b] (xt t)).get o) = fun t => a.activate (L.val w.get b.get (xt t).get o) := funext fun t => I.fn w b _ (hsh t) o ho
    rw [e, I.der w b x D rfl o ho]
    have h1 := L.val_deriv I.inp w.get b.get (xt := fun t => (xt t).get) hv o
    have h2 := I.smooth w b x rfl hs o ho
    rw [← h0] at h2 ⊢
    exact h2.comp t0 h1
  · rw [if_neg (by rw [I.flat]; simp), L.back_sum I.inp I.out w.get r.get D.get v]
    exact Finset.sum_congr rfl fun i hi => by rw [I.back w b d r x D rfl hr i (mem_idxs.1 hi)]

/-! ### other layers -/

theorem reshape_get (x : STensor ℝ) (s i : List Nat) (h : offset s i < size x.shape) : (x.reshape s).get i = x.get (unflat x.shape (offset s i)) := by
  show x.flat.getD (offset s i) _ = _
  rw [List.getD_eq_getElem?_getD, flat_getElem? h]; rfl

theorem exact_flatten (p : List (STensor ℝ)) {x D : STensor ℝ} (hD : D.shape = x.shape) : Exact .flatten p x D := by
  intro t0 xt v h0 hsh hv
  refine ⟨fun o => v (unflat x.shape (o.getD 0 0)), fun t => congrArg (fun s => [size s]) (hsh t), fun o ho => ?_, fun d r hd hr => ?_⟩
  · obtain ⟨j, hj, rfl⟩ := inRange_one ho
    have ho : offset [size x.shape] [j] = j := by simp [offset, size]
    have e : (fun t => (LSpec.fn LSpec.flatten p (xt t)).get [j]) = fun t => (xt t).get (unflat x.shape j) := by
      funext t
      show ((xt t).reshape [size (xt t).shape]).get [j] = _
      rw [hsh t, reshape_get _ _ _ (by rw [hsh t]; simpa [offset, size] using hj), hsh t, ho]
    have e2 : (LSpec.der LSpec.flatten p x D).get [j] = D.get (unflat x.shape j) := by
      show (D.reshape [size D.shape]).get [j] = _
      rw [hD, reshape_get _ _ _ (by rw [hD]; simpa [offset, size] using hj), hD, ho]
    rw [e, e2]
    exact hv _ (unflat_inRange hj)
  · show ∑ o ∈ idxs [size x.shape], d.get o * v (unflat x.shape (o.getD 0 0)) = ∑ i ∈ idxs x.shape, (d.reshape x.shape).get i * v i
    rw [sum_one]
    simp only [List.getD_cons_zero]
    rw [sum_unflat x.shape fun j i => d.get [j] * v i]
    refine Finset.sum_congr rfl fun i hi => ?_
    have hi := offset_lt (mem_idxs.1 hi)
    have hd : d.shape = [size x.shape] := hd
    rw [reshape_get _ _ _ (by rw [hd]; simpa [size] using hi), hd]
    congr 2
    have := unflat_inRange (shape := [size x.shape]) (k := offset x.shape i) (by simpa [size] using hi)
    obtain ⟨j, hj, e⟩ := inRange_one this
    have h2 := offset_unflat (shape := [size x.shape]) (k := offset x.shape i) (by simpa [size] using hi)
    rw [e] at h2 ⊢
    simp [offset, size] at h2
    rw [h2]

theorem exact_upSampling (n : Nat) (p : List (STensor ℝ)) {x D : STensor ℝ} (h3 : x.shape.length = 3) : Exact (.upSampling n) p x D := by
  intro t0 xt v h0 hsh hv
  obtain ⟨C, H, W, hs⟩ : ∃ C H W, x.shape = [C, H, W] := ⟨_, _, _, getD3 h3⟩
  have hr : ∀ o, InRange [C, H * n, W * n] o → InRange [C, H, W] [o.getD 0 0, o.getD 1 0 / n, o.getD 2 0 / n] := fun o ho => by
    obtain ⟨a, b, c, rfl, ha, hb, hc⟩ := inRange_three ho
    simp only [inRange_cons, List.getD_cons_zero, List.getD_cons_succ]
    exact ⟨ha, Nat.div_lt_of_lt_mul (by rwa [Nat.mul_comm]), Nat.div_lt_of_lt_mul (by rwa [Nat.mul_comm]), .nil⟩
  have hout : (LSpec.upSampling n : LSpec ℝ).outShape x.shape = [C, H * n, W * n] := by rw [hs]; rfl
  refine ⟨fun o => v [o.getD 0 0, o.getD 1 0 / n, o.getD 2 0 / n], fun t => ?_, fun o ho => ?_, fun d r hd hr' => ?_⟩
  · rw [← hsh t]; rfl
  · rw [hout] at ho
    exact hv _ (by rw [hs]; exact hr o ho)
  · rw [hout, hs]
    show ∑ o ∈ idxs _, r.get o * _ = _
    have e := Lin.sum_fiber (idxs [C, H * n, W * n]) (fun o => [o.getD 0 0, o.getD 1 0 / n, o.getD 2 0 / n]) (s := [C, H, W])
      (fun k hk => hr k (mem_idxs.1 hk)) v r.get
    rw [Finset.sum_congr rfl fun o _ => mul_comm (r.get o) _, ← e]
    refine Finset.sum_congr rfl fun i hi => ?_
    rw [mul_comm]
    congr 1
    obtain ⟨c, a, b, rfl, hc, ha, hb⟩ := inRange_three (mem_idxs.1 hi)
    show _ = sum1 _
    rw [sum1_real, sum_allIdx]
    symm
    refine Finset.sum_nbij' (fun k => [c, a * n + k.getD 0 0, b * n + k.getD 1 0]) (fun o => [o.getD 1 0 % n, o.getD 2 0 % n])
      (fun k hk => ?_) (fun o ho => ?_) (fun k hk => ?_) (fun o ho => ?_) (fun k hk => rfl)
    · obtain ⟨i, j, hi, hj, rfl⟩ := inRange_two (mem_idxs.1 hk)
      refine Finset.mem_filter.2 ⟨mem_idxs.2 ?_, ?_⟩
      · simp only [inRange_cons, List.getD_cons_zero, List.getD_cons_succ]
        have h1 : (a + 1) * n ≤ H * n := Nat.mul_le_mul_right n ha
        have h2 : (b + 1) * n ≤ W * n := Nat.mul_le_mul_right n hb
        rw [Nat.add_mul] at h1 h2
        exact ⟨hc, by omega, by omega, .nil⟩
      · simp only [List.getD_cons_zero, List.getD_cons_succ]
        rw [Nat.add_comm (a * n), Nat.add_mul_div_right _ _ (by omega), Nat.div_eq_of_lt hi, Nat.add_comm (b * n), Nat.add_mul_div_right _ _ (by omega),
          Nat.div_eq_of_lt hj, Nat.zero_add, Nat.zero_add]
    · obtain ⟨h1, h2⟩ := Finset.mem_filter.1 ho
      obtain ⟨q0, q1, q2, rfl, g0, g1, g2⟩ := inRange_three (mem_idxs.1 h1)
      have hn : 0 < n := Nat.pos_of_ne_zero fun h => by subst h; simp at g1
      refine mem_idxs.2 ?_
      simp only [inRange_cons, List.getD_cons_zero, List.getD_cons_succ]
      exact ⟨Nat.mod_lt _ hn, Nat.mod_lt _ hn, .nil⟩
    · obtain ⟨i, j, hi, hj, rfl⟩ := inRange_two (mem_idxs.1 hk)
      simp [Nat.mul_add_mod', Nat.mod_eq_of_lt hi, Nat.mod_eq_of_lt hj]
    · obtain ⟨h1, h2⟩ := Finset.mem_filter.1 ho
      obtain ⟨q0, q1, q2, rfl, g0, g1, g2⟩ := inRange_three (mem_idxs.1 h1)
      simp only [List.getD_cons_zero, List.getD_cons_succ, List.cons.injEq, and_true] at h2 ⊢
      obtain ⟨rfl, rfl, rfl⟩ := h2
      exact ⟨rfl, Nat.div_add_mod' _ _, Nat.div_add_mod' _ _⟩

theorem sub_there {lo hi : Nat} : ∀ {s o : List Nat} {dim : Nat}, dim < s.length → lo < hi → hi ≤ s.getD dim 0 → InRange (s.set dim (hi - lo)) o →
    InRange s (o.modify dim (· + lo)) ∧ lo ≤ (o.modify dim (· + lo)).getD dim 0 ∧ (o.modify dim (· + lo)).getD dim 0 < hi ∧
      (o.modify dim (· + lo)).set dim ((o.modify dim (· + lo)).getD dim 0 - lo) = o
  | [], o, dim, h, _, _, _ => by simp at h
  | a :: s, o, 0, h, h1, h2, ho => by
    obtain ⟨i, r, rfl, h3, h4⟩ := inRange_cons_left ho
    simp only [List.getD_cons_zero] at h2
    simp only [List.modify_zero_cons, inRange_cons, List.getD_cons_zero, List.set_cons_zero, Nat.add_sub_cancel, and_true]
    exact ⟨⟨by omega, h4⟩, by omega, by omega⟩
  | a :: s, o, dim + 1, h, h1, h2, ho => by
    obtain ⟨i, r, rfl, h3, h4⟩ := inRange_cons_left ho
    simp only [List.getD_cons_succ] at h2
    obtain ⟨g1, g2, g3, g4⟩ := sub_there (by simpa using h) h1 h2 h4
    simp only [List.modify_succ_cons, inRange_cons, List.getD_cons_succ, List.set_cons_succ]
    exact ⟨⟨h3, g1⟩, g2, g3, by rw [g4]⟩

theorem sub_back {lo hi : Nat} : ∀ {s i : List Nat} {dim : Nat}, dim < s.length → InRange s i → lo ≤ i.getD dim 0 → i.getD dim 0 < hi →
    InRange (s.set dim (hi - lo)) (i.set dim (i.getD dim 0 - lo)) ∧ (i.set dim (i.getD dim 0 - lo)).modify dim (· + lo) = i
  | [], i, dim, h, _, _, _ => by simp at h
  | a :: s, i, 0, h, hi, h1, h2 => by
    obtain ⟨j, r, rfl, h3, h4⟩ := inRange_cons_left hi
    simp only [List.getD_cons_zero] at h1 h2
    simp only [List.modify_zero_cons, inRange_cons, List.getD_cons_zero, List.set_cons_zero]
    exact ⟨⟨by omega, h4⟩, by rw [Nat.sub_add_cancel h1]⟩
  | a :: s, i, dim + 1, h, hi, h1, h2 => by
    obtain ⟨j, r, rfl, h3, h4⟩ := inRange_cons_left hi
    simp only [List.getD_cons_succ] at h1 h2
    obtain ⟨g1, g2⟩ := sub_back (by simpa using h) h4 h1 h2
    simp only [List.modify_succ_cons, inRange_cons, List.getD_cons_succ, List.set_cons_succ]
    exact ⟨⟨h3, g1⟩, by rw [g2]⟩

theorem exact_sub (dim lo hi : Nat) (p : List (STensor ℝ)) {x D : STensor ℝ} (hf : (LSpec.sub dim lo hi : LSpec ℝ).fits x.shape) : Exact (.sub dim lo hi) p x D := by
  intro t0 xt v h0 hsh hv
  obtain ⟨h1, h2, h3⟩ := hf
  refine ⟨fun o => v (o.modify dim (· + lo)), fun t => ?_, fun o ho => ?_, fun d r hd hr' => ?_⟩
  · rw [← hsh t]; rfl
  · exact hv _ (sub_there h1 h2 h3 ho).1
  · show ∑ o ∈ idxs (x.shape.set dim (hi - lo)), r.get o * v (o.modify dim (· + lo)) = ∑ i ∈ idxs x.shape, (subBack dim lo hi r x).get i * v i
    have e : ∀ i, (subBack dim lo hi r x).get i * v i = if lo ≤ i.getD dim 0 ∧ i.getD dim 0 < hi then r.get (i.set dim (i.getD dim 0 - lo)) * v i else 0 := fun i => by
      show (if _ then r.get _ + (0 : ℝ) else 0) * v i = _
      split <;> simp
    simp only [e]
    rw [← Finset.sum_filter]
    refine Finset.sum_nbij' (fun o => o.modify dim (· + lo)) (fun i => i.set dim (i.getD dim 0 - lo)) (fun o ho => ?_) (fun i hi => ?_) (fun o ho => ?_) (fun i hi => ?_) (fun o ho => ?_)
    · obtain ⟨g1, g2, g3, g4⟩ := sub_there h1 h2 h3 (mem_idxs.1 ho)
      exact Finset.mem_filter.2 ⟨mem_idxs.2 g1, g2, g3⟩
    · obtain ⟨g1, g2, g3⟩ := Finset.mem_filter.1 hi
      exact mem_idxs.2 (sub_back h1 (mem_idxs.1 g1) g2 g3).1
    · exact (sub_there h1 h2 h3 (mem_idxs.1 ho)).2.2.2
    · obtain ⟨g1, g2, g3⟩ := Finset.mem_filter.1 hi
      exact (sub_back h1 (mem_idxs.1 g1) g2 g3).2
    · rw [(sub_there h1 h2 h3 (mem_idxs.1 ho)).2.2.2]

theorem max1_real {l : List ℝ} {m : ℝ} (h1 : m ∈ l) (h2 : ∀ v ∈ l, v ≤ m) : max1 l = m := by
  obtain ⟨g1, g2⟩ := max1_spec (fieldNum_weakOrder (K := ℝ)) l (List.ne_nil_of_mem h1)
  have g3 : ¬ (max1 l < m) := of_decide_eq_false (g2 m h1)
  exact le_antisymm (h2 _ g1) (not_lt.1 g3)

theorem same_real (a b : ℝ) : same a b = if a = b then 1 else 0 := by
  show (if decide (a = b) = true then (1 : ℝ) else 0) = _
  simp

theorem mem_window {sx sy h w a b : Nat} {p : Nat × Nat} (h1 : 0 < sx) (h2 : 0 < sy) :
    p ∈ window sx sy h w a b ↔ p.1 / sx = a ∧ p.2 / sy = b ∧ p.1 < h ∧ p.2 < w := by
  simp only [window, List.mem_flatMap, List.mem_filter, List.mem_range, decide_eq_true_eq, List.mem_map]
  constructor
  · rintro ⟨i, ⟨hi, hih⟩, j, ⟨hj, hjw⟩, rfl⟩
    refine ⟨?_, ?_, hih, hjw⟩
    · show (a * sx + i) / sx = a
      rw [Nat.add_comm, Nat.add_mul_div_right _ _ h1, Nat.div_eq_of_lt hi, Nat.zero_add]
    · show (b * sy + j) / sy = b
      rw [Nat.add_comm, Nat.add_mul_div_right _ _ h2, Nat.div_eq_of_lt hj, Nat.zero_add]
  · rintro ⟨rfl, rfl, g1, g2⟩
    refine ⟨p.1 % sx, ⟨Nat.mod_lt _ h1, by rw [Nat.div_add_mod']; exact g1⟩, p.2 % sy, ⟨Nat.mod_lt _ h2, by rw [Nat.div_add_mod']; exact g2⟩, ?_⟩
    rw [Nat.div_add_mod', Nat.div_add_mod']

theorem window_nodup (sx sy h w a b : Nat) : (window sx sy h w a b).Nodup := by
  unfold window
  refine List.nodup_flatMap.2 ⟨fun i _ => ?_, ?_⟩
  · exact List.Nodup.map (fun j k e => by simpa using e) (List.Nodup.filter _ List.nodup_range)
  · refine (List.Nodup.filter _ List.nodup_range).imp fun {i k} hne => ?_
    rw [Function.onFun, List.disjoint_left]
    intro q h1 h2
    obtain ⟨j, _, rfl⟩ := List.mem_map.1 h1
    obtain ⟨j', _, e⟩ := List.mem_map.1 h2
    simp only [Prod.mk.injEq] at e
    exact hne (by omega)

theorem exact_maxPool (sx sy : Nat) (p : List (STensor ℝ)) {x D : STensor ℝ} (hf : (LSpec.maxPool sx sy : LSpec ℝ).fits x.shape)
    (hsafe : (LSpec.maxPool sx sy : LSpec ℝ).safe x.shape) (hs : (LSpec.maxPool sx sy : LSpec ℝ).SmoothAt p x) : Exact (.maxPool sx sy) p x D := by
  intro t0 xt v h0 hsh hv
  obtain ⟨h3, hsx, hsy⟩ := hf
  obtain ⟨C, H, W, hsp⟩ : ∃ C H W, x.shape = [C, H, W] := ⟨_, _, _, getD3 h3⟩
  have hout : (LSpec.maxPool sx sy : LSpec ℝ).outShape x.shape = [C, (H + 1) / sx, (W + 1) / sy] := by rw [hsp]; rfl
  have hms : (maxPoolFn sx sy x).shape = [C, (H + 1) / sx, (W + 1) / sy] := by rw [← hout]; rfl
  have hget : ∀ x' : STensor ℝ, x'.shape = [C, H, W] → ∀ o, (maxPoolFn sx sy x').get o =
      max1 ((window sx sy H W (o.getD 1 0) (o.getD 2 0)).map fun q => x'.get [o.getD 0 0, q.1, q.2]) := fun x' h o => by
    show max1 _ = _
    rw [h]; rfl
  have key : ∀ o, InRange [C, (H + 1) / sx, (W + 1) / sy] o → ∃ q : Nat × Nat, q ∈ window sx sy H W (o.getD 1 0) (o.getD 2 0) ∧
      x.get [o.getD 0 0, q.1, q.2] = (maxPoolFn sx sy x).get o ∧
      ∀ q' ∈ window sx sy H W (o.getD 1 0) (o.getD 2 0), q' ≠ q → x.get [o.getD 0 0, q'.1, q'.2] < (maxPoolFn sx sy x).get o := fun o ho => by
    have hne : window sx sy H W (o.getD 1 0) (o.getD 2 0) ≠ [] := by
      obtain ⟨a, b, c, rfl, ha, hb, hc⟩ := inRange_three ho
      rcases hsafe with ⟨g1, g2⟩ | h
      · exact window_ne g1 g2 hb hc
      · rw [hsp] at h
        have : C = 0 := h
        omega
    obtain ⟨g1, g2⟩ := max1_spec (fieldNum_weakOrder (K := ℝ)) ((window sx sy H W (o.getD 1 0) (o.getD 2 0)).map fun q => x.get [o.getD 0 0, q.1, q.2]) (by simpa using hne)
    have hm := hget x hsp o
    rw [← hm] at g1 g2
    obtain ⟨q, hq, e⟩ := List.mem_map.1 g1
    refine ⟨q, hq, e, fun q' hq' hne => ?_⟩
    have g3 : ¬ ((maxPoolFn sx sy x).get o < x.get [o.getD 0 0, q'.1, q'.2]) := of_decide_eq_false (g2 _ (List.mem_map_of_mem hq'))
    refine lt_of_le_of_ne (not_lt.1 g3) fun h => hne ?_
    have := hs o (by rw [hms]; exact ho) q' (by rw [hsp]; exact hq') q (by rw [hsp]; exact hq) h e
    exact this
  choose! top ht1 ht2 ht3 using key
  refine ⟨fun o => v [o.getD 0 0, (top o).1, (top o).2], fun t => ?_, fun o ho => ?_, fun d r hd hr => ?_⟩
  · rw [← hsh t]; rfl
  · rw [hout] at ho
    have hin : ∀ q ∈ window sx sy H W (o.getD 1 0) (o.getD 2 0), InRange x.shape [o.getD 0 0, q.1, q.2] := fun q hq => by
      obtain ⟨_, _, g1, g2⟩ := (mem_window hsx hsy).1 hq
      obtain ⟨a, b, c, rfl, ha, hb, hc⟩ := inRange_three ho
      rw [hsp]
      simp only [inRange_cons, List.getD_cons_zero]
      exact ⟨ha, g1, g2, .nil⟩
    have hev : ∀ᶠ t in nhds t0, (LSpec.fn (LSpec.maxPool sx sy) p (xt t)).get o = (xt t).get [o.getD 0 0, (top o).1, (top o).2] := by
      have h1 : ∀ q ∈ window sx sy H W (o.getD 1 0) (o.getD 2 0), ∀ᶠ t in nhds t0, (xt t).get [o.getD 0 0, q.1, q.2] ≤ (xt t).get [o.getD 0 0, (top o).1, (top o).2] := fun q hq => by
        by_cases hqt : q = top o
        · rw [hqt]; exact Filter.Eventually.of_forall fun t => le_refl _
        · have hlt := ht3 o ho q hq hqt
          rw [← ht2 o ho, ← h0] at hlt
          have c1 := (hv _ (hin q hq)).continuousAt
          have c2 := (hv _ (hin _ (ht1 o ho))).continuousAt
          exact (c1.eventually_lt c2 hlt).mono fun t h => le_of_lt h
      have h2 : ∀ᶠ t in nhds t0, ∀ q ∈ (window sx sy H W (o.getD 1 0) (o.getD 2 0)).toFinset, (xt t).get [o.getD 0 0, q.1, q.2] ≤ (xt t).get [o.getD 0 0, (top o).1, (top o).2] :=
        (Filter.eventually_all_finset _).2 fun q hq => h1 q (List.mem_toFinset.1 hq)
      refine h2.mono fun t h => ?_
      show (maxPoolFn sx sy (xt t)).get o = _
      rw [hget _ (by rw [hsh t, hsp])]
      refine max1_real (List.mem_map.2 ⟨top o, ht1 o ho, rfl⟩) fun u hu => ?_
      obtain ⟨q, hq, rfl⟩ := List.mem_map.1 hu
      exact h q (List.mem_toFinset.2 hq)
    have e : (LSpec.der (LSpec.maxPool sx sy) p x D).get o = D.get [o.getD 0 0, (top o).1, (top o).2] := by
      show sum1 _ = _
      rw [sum1_real, hsp]
      show ((window sx sy H W (o.getD 1 0) (o.getD 2 0)).map fun q => D.get [o.getD 0 0, q.1, q.2] * same (x.get [o.getD 0 0, q.1, q.2]) ((maxPoolFn sx sy x).get o)).sum = _
      rw [← List.sum_toFinset _ (window_nodup ..), Finset.sum_eq_single (top o)]
      · rw [ht2 o ho]
        simp [same_real]
      · intro q hq hne
        have := ne_of_lt (ht3 o ho q (List.mem_toFinset.1 hq) hne)
        rw [same_real, if_neg this, mul_zero]
      · intro h
        exact absurd (List.mem_toFinset.2 (ht1 o ho)) h
    rw [e]
    exact (hv _ (hin _ (ht1 o ho))).congr_of_eventuallyEq hev
  · rw [hout] at hd hr ⊢
    show ∑ o ∈ idxs _, r.get o * _ = ∑ i ∈ idxs x.shape, (maxPoolBack sx sy r x).get i * v i
    have e : ∀ i, (maxPoolBack sx sy r x).get i * v i = if (i.getD 1 0 / sx < (H + 1) / sx ∧ i.getD 2 0 / sy < (W + 1) / sy) ∧
        x.get i = (maxPoolFn sx sy x).get [i.getD 0 0, i.getD 1 0 / sx, i.getD 2 0 / sy] then r.get [i.getD 0 0, i.getD 1 0 / sx, i.getD 2 0 / sy] * v i else 0 := fun i => by
      show (if _ < r.shape.getD 1 0 ∧ _ < r.shape.getD 2 0 then (0 : ℝ) + r.get _ * same _ _ else 0) * v i = _
      rw [hr]
      simp only [List.getD_cons_zero, List.getD_cons_succ]
      by_cases h1 : i.getD 1 0 / sx < (H + 1) / sx ∧ i.getD 2 0 / sy < (W + 1) / sy
      · rw [if_pos h1]
        by_cases h2 : x.get i = (maxPoolFn sx sy x).get [i.getD 0 0, i.getD 1 0 / sx, i.getD 2 0 / sy]
        · rw [if_pos ⟨h1, h2⟩]
          simp only [same_real, if_pos h2]; ring
        · rw [if_neg fun h => h2 h.2]
          simp only [same_real, if_neg h2]; ring
      · rw [if_neg h1, if_neg fun h => h1 h.1, zero_mul]
    simp only [e]
    rw [← Finset.sum_filter, hsp]
    have hpos : ∀ o, InRange [C, (H + 1) / sx, (W + 1) / sy] o → (top o).1 / sx = o.getD 1 0 ∧ (top o).2 / sy = o.getD 2 0 ∧ (top o).1 < H ∧ (top o).2 < W := fun o ho =>
      (mem_window hsx hsy).1 (ht1 o ho)
    refine Finset.sum_nbij' (fun o => [o.getD 0 0, (top o).1, (top o).2]) (fun i => [i.getD 0 0, i.getD 1 0 / sx, i.getD 2 0 / sy])
      (fun o ho => ?_) (fun i hi => ?_) (fun o ho => ?_) (fun i hi => ?_) (fun o ho => ?_)
    · have ho := mem_idxs.1 ho
      obtain ⟨g1, g2, g3, g4⟩ := hpos o ho
      have e2 := ht2 o ho
      obtain ⟨a, b, c, rfl, ha, hb, hc⟩ := inRange_three ho
      simp only [List.getD_cons_zero, List.getD_cons_succ] at g1 g2 g3 g4 e2 ⊢
      refine Finset.mem_filter.2 ⟨mem_idxs.2 ?_, ⟨?_, ?_⟩, ?_⟩
      · simp only [inRange_cons]
        exact ⟨ha, g3, g4, .nil⟩
      · simp only [List.getD_cons_zero, List.getD_cons_succ]; rw [g1]; exact hb
      · simp only [List.getD_cons_zero, List.getD_cons_succ]; rw [g2]; exact hc
      · simp only [List.getD_cons_zero, List.getD_cons_succ]; rw [g1, g2]; exact e2
    · obtain ⟨g1, ⟨g2, g3⟩, g4⟩ := Finset.mem_filter.1 hi
      obtain ⟨a, b, c, rfl, ha, hb, hc⟩ := inRange_three (mem_idxs.1 g1)
      refine mem_idxs.2 ?_
      simp only [inRange_cons]
      exact ⟨ha, g2, g3, .nil⟩
    · have ho := mem_idxs.1 ho
      obtain ⟨g1, g2, g3, g4⟩ := hpos o ho
      obtain ⟨a, b, c, rfl, ha, hb, hc⟩ := inRange_three ho
      simp only [List.getD_cons_zero, List.getD_cons_succ] at g1 g2 ⊢
      rw [g1, g2]
    · obtain ⟨g1, ⟨g2, g3⟩, g4⟩ := Finset.mem_filter.1 hi
      obtain ⟨a, b, c, rfl, ha, hb, hc⟩ := inRange_three (mem_idxs.1 g1)
      simp only [List.getD_cons_zero, List.getD_cons_succ] at g2 g3 g4 ⊢
      have ho : InRange [C, (H + 1) / sx, (W + 1) / sy] [a, b / sx, c / sy] := by
        simp only [inRange_cons]
        exact ⟨ha, g2, g3, .nil⟩
      by_contra hne
      have hne : (b, c) ≠ top [a, b / sx, c / sy] := fun h => hne (by rw [← h])
      have := ht3 _ ho (b, c) ((mem_window hsx hsy).2 ⟨rfl, rfl, hb, hc⟩) hne
      simp only [List.getD_cons_zero] at this
      rw [g4] at this
      exact lt_irrefl _ this
    · have ho := mem_idxs.1 ho
      obtain ⟨g1, g2, g3, g4⟩ := hpos o ho
      obtain ⟨a, b, c, rfl, ha, hb, hc⟩ := inRange_three ho
      simp only [List.getD_cons_zero, List.getD_cons_succ] at g1 g2 ⊢
      rw [g1, g2]

end Godeep
