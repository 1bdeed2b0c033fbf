import Verif.Lemmas.Descent3
/-
  The derivative of the loss along one training step.
-/
set_option linter.unusedSectionVars false

namespace Godeep
open Spec Props

theorem Lin.path_deriv (L : Lin) {xs ws : List Nat} (hin : ∀ k ∈ L.E, InRange xs (L.inp k)) (hwt : ∀ k ∈ L.E, InRange ws (L.wt k))
    {wt bt xt : ℝ → List Nat → ℝ} {u gw gb : List Nat → ℝ} {t0 : ℝ} {o : List Nat}
    (hw : ∀ q, InRange ws q → HasDerivAt (fun t => wt t q) (gw q) t0) (hb : HasDerivAt (fun t => bt t o) (gb o) t0)
    (hx : ∀ i, InRange xs i → HasDerivAt (fun t => xt t i) (u i) t0) :
    HasDerivAt (fun t => L.val (wt t) (bt t) (xt t) o)
      (gb o + ∑ k ∈ L.E with L.out k = o, (u (L.inp k) * wt t0 (L.wt k) + xt t0 (L.inp k) * gw (L.wt k))) t0 := by
  refine HasDerivAt.add hb (HasDerivAt.fun_sum fun k hk => ?_)
  have hk := (Finset.mem_filter.1 hk).1
  exact (hx _ (hin k hk)).mul (hw _ (hwt k hk))

theorem Lin.path_sum (L : Lin) {xs os ws : List Nat} (hin : ∀ k ∈ L.E, InRange xs (L.inp k)) (hout : ∀ k ∈ L.E, InRange os (L.out k))
    (hwt : ∀ k ∈ L.E, InRange ws (L.wt k)) (w x r D v gw gb : List Nat → ℝ) :
    ∑ o ∈ idxs os, r o * (gb o + ∑ k ∈ L.E with L.out k = o, (D (L.inp k) * v (L.inp k) * w (L.wt k) + x (L.inp k) * gw (L.wt k))) =
      ∑ i ∈ idxs xs, (L.back w r i * D i) * v i + (∑ o ∈ idxs os, r o * gb o + ∑ q ∈ idxs ws, L.grad r x q * gw q) := by
  rw [← L.back_sum hin hout w r D v]
  have e1 : ∀ q, L.grad r x q * gw q = gw q * ∑ k ∈ L.E with L.wt k = q, r (L.out k) * x (L.inp k) := fun q => by unfold Lin.grad; ring
  have e2 : ∑ q ∈ idxs ws, L.grad r x q * gw q = ∑ o ∈ idxs os, r o * ∑ k ∈ L.E with L.out k = o, x (L.inp k) * gw (L.wt k) := by
    simp only [e1]
    rw [Lin.sum_fiber L.E L.wt hwt, Lin.sum_fiber L.E L.out hout]
    exact Finset.sum_congr rfl fun k _ => by ring
  rw [e2, ← Finset.sum_add_distrib, ← Finset.sum_add_distrib]
  refine Finset.sum_congr rfl fun o _ => ?_
  rw [Finset.sum_add_distrib]
  ring

theorem learn_back (al al' mu mu' : ℝ) (y : STensor ℝ) : ∀ (ls : List (LSpec ℝ)) (ts : List Bool) (ps ms : List (List (STensor ℝ))) (x D : STensor ℝ),
    (learn al mu y ls ts ps ms x D).2.2 = (learn al' mu' y ls ts ps ms x D).2.2
  | [], _, _, _, _, _ => rfl
  | _ :: _, [], _, _, _, _ => rfl
  | _ :: _, _ :: _, [], _, _, _ => rfl
  | _ :: _, _ :: _, _ :: _, [], _, _ => rfl
  | l :: ls, t :: ts, p :: ps, m :: ms, x, D => by
    have := learn_back al al' mu mu' y ls ts ps ms (l.fn p x) (l.der p x D)
    simp only [learn]
    rw [this]

/-- the loss moves by minus `c` times the errors, and by minus something that is positive unless no weight changes -/
def Descends (loss : STensor ℝ → ℝ) (y : STensor ℝ) (ls : List (LSpec ℝ)) (ts : List Bool) (ps ms : List (List (STensor ℝ))) (x D : STensor ℝ) (c : ℝ) : Prop :=
  (learn 0 0 y ls ts ps ms x D).1 = ps ∧
  ∃ S : ℝ, 0 ≤ S ∧ (S = 0 → ∀ t, SameWeights ps (learn t 0 y ls ts ps ms x D).1) ∧
  ∀ (xt : ℝ → STensor ℝ) (v : List Nat → ℝ), xt 0 = x → (∀ t, (xt t).shape = x.shape) →
    (∀ i, InRange x.shape i → HasDerivAt (fun t => (xt t).get i) (D.get i * v i) 0) →
    HasDerivAt (fun t => loss (netFn ls (learn t 0 y ls ts ps ms x D).1 (xt t))) (-(c * ∑ i ∈ idxs x.shape, (learn 0 0 y ls ts ps ms x D).2.2.get i * v i) - S) 0

theorem same_refl (p : List (STensor ℝ)) : List.Forall₂ (fun A B : STensor ℝ => B.shape = A.shape ∧ ∀ idx, InRange A.shape idx → B.get idx = A.get idx) p p :=
  List.forall₂_same.2 fun _ _ => ⟨rfl, fun _ _ => rfl⟩

theorem descends_fix {loss : STensor ℝ → ℝ} {y : STensor ℝ} {l : LSpec ℝ} {ls : List (LSpec ℝ)} {t : Bool} {ts : List Bool} {p m : List (STensor ℝ)}
    {ps ms : List (List (STensor ℝ))} {x D : STensor ℝ} {c : ℝ} (F : Descends loss y ls ts ps ms (l.fn p x) (l.der p x D) c) (E : Exact l p x D)
    (hfn : (l.fn p x).shape = l.outShape x.shape) (hfix : ∀ al d r, (if t then l.learned al 0 p m d r x else p) = p) :
    Descends loss y (l :: ls) (t :: ts) (p :: ps) (m :: ms) x D (c * (if l.isFlatten then 1 else behind ls : Nat)) := by
  obtain ⟨F0, S, hS, hS0, F⟩ := F
  have hlearn : ∀ al, (learn al 0 y (l :: ls) (t :: ts) (p :: ps) (m :: ms) x D).1 = p :: (learn al 0 y ls ts ps ms (l.fn p x) (l.der p x D)).1 := fun al => by
    simp only [learn, hfix]
  refine ⟨by rw [hlearn, F0], S, hS, fun h t => ?_, fun xt v h0 hsh hv => ?_⟩
  · rw [hlearn]
    exact .cons (same_refl p) (hS0 h t)
  simp only [hlearn]
  obtain ⟨v2, h1, h2, h3⟩ := E 0 xt v h0 hsh hv
  have key := F (fun t => l.fn p (xt t)) v2 (by rw [h0]) (fun t => by rw [h1 t, hfn]) (by rw [hfn]; exact h2)
  obtain ⟨q, hq⟩ : ∃ q, q = learn 0 0 y ls ts ps ms (l.fn p x) (l.der p x D) := ⟨_, rfl⟩
  rw [← hq, hfn] at key
  have hqs : q.2.2.shape = l.outShape x.shape := by rw [hq, learn_shape, hfn]
  have e := h3 q.2.2 (shared (uses ls) q.2.2) hqs ((shared_real ls _).1.trans hqs)
  have e2 : (learn 0 0 y (l :: ls) (t :: ts) (p :: ps) (m :: ms) x D).2.2 = l.back p q.2.2 (shared (uses ls) q.2.2) x D := by rw [hq]; rfl
  rw [e2, ← e]
  convert key using 1
  congr 2
  by_cases hf : l.isFlatten = true
  · simp [hf]
  · simp only [hf, Bool.false_eq_true, if_false, (shared_real ls _).2]
    have hb := (behind_pos ls).ne'
    have e3 : ∑ o ∈ idxs (l.outShape x.shape), q.2.2.get o * v2 o = behind ls * ∑ o ∈ idxs (l.outShape x.shape), q.2.2.get o / behind ls * v2 o := by
      rw [Finset.mul_sum]
      refine Finset.sum_congr rfl fun o _ => ?_
      field_simp
    rw [e3, mul_assoc]

theorem ownShare_pos (l : LSpec ℝ) (ls : List (LSpec ℝ)) : 0 < ownShare l ls := by
  cases l
  case dense => exact behind_pos ls
  all_goals exact one_pos

theorem descends_lin {loss : STensor ℝ → ℝ} {y : STensor ℝ} {l : LSpec ℝ} {ls : List (LSpec ℝ)} {ts : List Bool} {w b : STensor ℝ} {m : List (STensor ℝ)}
    {ps ms : List (List (STensor ℝ))} {x D : STensor ℝ} {c : ℝ} {L : Lin} {a : Activation ℝ} (I : IsLin l x.shape L a)
    (hp : l.paramShapes x.shape = [w.shape, b.shape]) (hm : m.map STensor.shape = l.momShapes x.shape) (hs : l.SmoothAt [w, b] x)
    (F : Descends loss y ls ts ps ms (l.fn [w, b] x) (l.der [w, b] x D) c) (hc : 0 < c) :
    Descends loss y (l :: ls) (true :: ts) ([w, b] :: ps) (m :: ms) x D (c * (behind ls : Nat)) := by
  obtain ⟨F0, S, hS, hS0, F⟩ := F
  obtain ⟨q, hq⟩ : ∃ q, q = learn 0 0 y ls ts ps ms (l.fn [w, b] x) (l.der [w, b] x D) := ⟨_, rfl⟩
  obtain ⟨ws, hws, hwt⟩ := I.par
  have hpar := hp
  rw [hws] at hp
  simp only [List.cons.injEq, and_true] at hp
  have hb : b.shape = l.outShape x.shape := hp.2.symm
  have hfn := I.fnS w b x hb
  have hqs : q.2.2.shape = l.outShape x.shape := by rw [hq, learn_shape, hfn]
  have H := fun al => I.grad w b m q.2.2 (shared (uses ls) q.2.2) x al 0 rfl hqs ((shared_real ls _).1.trans hqs) hm hpar
  choose A B H1 H2 H3 H4 H5 using H
  have hlearn : ∀ al, (learn al 0 y (l :: ls) (true :: ts) ([w, b] :: ps) (m :: ms) x D).1 = [A al, B al] :: (learn al 0 y ls ts ps ms (l.fn [w, b] x) (l.der [w, b] x D)).1 := fun al => by
    rw [← H1 al, hq, learn_back 0 al 0 0]; rfl
  have hz : [A 0, B 0] = [w, b] := by rw [← H1 0]; exact I.zero w b m _ _ x hm
  obtain ⟨er, her⟩ : ∃ er, er = (l.errs q.2.2 (shared (uses ls) q.2.2)).get := ⟨_, rfl⟩
  have herr : ∀ i, q.2.2.get i = ownShare l ls * er i := fun i => by
    rw [her, errs_real]
    have := (ownShare_pos l ls).ne'
    field_simp
  rw [← her] at H4 H5
  simp only [zero_mul, add_zero] at H5
  obtain ⟨G, hG⟩ : ∃ G, G = L.grad er x.get := ⟨_, rfl⟩
  rw [← hG] at H4
  have hgrad : ∀ i, L.grad q.2.2.get x.get i = ownShare l ls * G i := fun i => by
    rw [hG]
    unfold Lin.grad
    rw [Finset.mul_sum]
    exact Finset.sum_congr rfl fun k _ => by rw [herr]; ring
  obtain ⟨N, hN⟩ : ∃ N, N = ∑ o ∈ idxs (l.outShape x.shape), er o ^ 2 + ∑ i ∈ idxs ws, G i ^ 2 := ⟨_, rfl⟩
  have hN0 : 0 ≤ N := by
    rw [hN]
    exact add_nonneg (Finset.sum_nonneg fun i _ => sq_nonneg _) (Finset.sum_nonneg fun i _ => sq_nonneg _)
  have hsh := ownShare_pos l ls
  refine ⟨by rw [hlearn, F0, hz], S + c * ownShare l ls * N, by positivity, fun h t => ?_, fun xt v h0 hxs hv => ?_⟩
  · have h1 : 0 ≤ c * ownShare l ls * N := by positivity
    have hS1 : S = 0 := by linarith
    have hN1 : N = 0 := by
      have : c * ownShare l ls * N = 0 := by linarith
      rcases mul_eq_zero.1 this with h | h
      · exact absurd h (by positivity)
      · exact h
    rw [hN] at hN1
    have g1 : 0 ≤ ∑ o ∈ idxs (l.outShape x.shape), er o ^ 2 := Finset.sum_nonneg fun i _ => sq_nonneg _
    have g2 : 0 ≤ ∑ i ∈ idxs ws, G i ^ 2 := Finset.sum_nonneg fun i _ => sq_nonneg _
    have z1 := (Finset.sum_eq_zero_iff_of_nonneg fun i _ => sq_nonneg (er i)).1 (show ∑ o ∈ idxs (l.outShape x.shape), er o ^ 2 = 0 by linarith)
    have z2 := (Finset.sum_eq_zero_iff_of_nonneg fun i _ => sq_nonneg (G i)).1 (show ∑ o ∈ idxs ws, G o ^ 2 = 0 by linarith)
    rw [hlearn]
    refine .cons (.cons ⟨H2 t, fun i hi => ?_⟩ (.cons ⟨H3 t, fun i hi => ?_⟩ .nil)) (hS0 hS1 t)
    · rw [H4 t i hi, pow_eq_zero_iff (two_ne_zero) |>.1 (z2 i (mem_idxs.2 (by rw [hp.1]; exact hi)))]; ring
    · rw [H5 t i, pow_eq_zero_iff (two_ne_zero) |>.1 (z1 i (mem_idxs.2 (by rw [← hb]; exact hi)))]; ring
  simp only [hlearn]
  have sm := I.smooth w b x rfl hs
  have hA0 : A 0 = w := (List.cons.inj hz).1
  have hB0 : B 0 = b := (List.cons.inj (List.cons.inj hz).2).1
  have key := F (fun t => l.fn [A t, B t] (xt t))
    (fun o => er o + ∑ k ∈ L.E with L.out k = o, (D.get (L.inp k) * v (L.inp k) * w.get (L.wt k) + x.get (L.inp k) * G (L.wt k)))
    (by rw [hA0, hB0, h0]) (fun t => by rw [I.fnS _ _ _ ((H3 t).trans hb), hfn]) (fun o ho => by
      rw [hfn] at ho
      rw [I.der w b x D rfl o ho]
      have e : (fun t => (l.fn [A t, B t] (xt t)).get o) = fun t => a.activate (L.val (A t).get (B t).get (xt t).get o) :=
        funext fun t => I.fn _ _ _ (hxs t) o ho
      rw [e]
      have h1 := L.path_deriv (wt := fun t => (A t).get) (bt := fun t => (B t).get) (xt := fun t => (xt t).get) (gw := G) (gb := er) (t0 := 0) (o := o) I.inp hwt
        (fun i hi => by
          rw [hp.1] at hi
          simp only [H4 _ i hi]
          simpa using ((hasDerivAt_id' (0 : ℝ)).mul_const (G i)).const_add (w.get i))
        (by
          simp only [H5]
          simpa using ((hasDerivAt_id' (0 : ℝ)).mul_const (er o)).const_add (b.get o))
        hv
      have h2 := sm o ho
      simp only [hA0, h0] at h1
      have h2' : HasDerivAt a.activate (a.derive (L.val w.get b.get x.get o)) (L.val (A 0).get (B 0).get (xt 0).get o) := by rw [hA0, hB0, h0]; exact h2
      exact h2'.comp 0 h1)
  rw [← hq, hfn, L.path_sum I.inp I.out hwt w.get x.get q.2.2.get D.get v G er] at key
  have e2 : (learn 0 0 y (l :: ls) (true :: ts) ([w, b] :: ps) (m :: ms) x D).2.2 = l.back [w, b] q.2.2 (shared (uses ls) q.2.2) x D := by rw [hq]; rfl
  have e3 : ∑ i ∈ idxs x.shape, (l.back [w, b] q.2.2 (shared (uses ls) q.2.2) x D).get i * v i = (∑ i ∈ idxs x.shape, L.back w.get q.2.2.get i * D.get i * v i) / behind ls := by
    rw [Finset.sum_div]
    refine Finset.sum_congr rfl fun i hi => ?_
    rw [I.back w b _ _ x D rfl ((shared_real ls _).1.trans hqs) i (mem_idxs.1 hi)]
    have : L.back w.get (shared (uses ls) q.2.2).get i = L.back w.get q.2.2.get i / behind ls := by
      unfold Lin.back
      rw [Finset.sum_div]
      exact Finset.sum_congr rfl fun k _ => by rw [(shared_real ls _).2]; ring
    rw [this]; ring
  have e4 : ∑ o ∈ idxs (l.outShape x.shape), q.2.2.get o * er o + ∑ i ∈ idxs ws, L.grad q.2.2.get x.get i * G i = ownShare l ls * N := by
    rw [hN, mul_add, Finset.mul_sum, Finset.mul_sum]
    congr 1
    · exact Finset.sum_congr rfl fun k _ => by rw [herr]; ring
    · exact Finset.sum_congr rfl fun k _ => by rw [hgrad]; ring
  rw [e4] at key
  rw [e2, e3]
  have hbp := (behind_pos ls).ne'
  have e5 : ∀ s : ℝ, -(c * (behind ls : ℝ) * (s / behind ls)) - (S + c * ownShare l ls * N) = -(c * (s + ownShare l ls * N)) - S := fun s => by
    field_simp
    ring
  rw [e5]
  exact key

theorem descends_net {loss : STensor ℝ → ℝ} {y : STensor ℝ} : ∀ (ls : List (LSpec ℝ)) (ts : List Bool) (ps ms : List (List (STensor ℝ))) (x D : STensor ℝ),
    ts.length = ls.length → ms.length = ls.length → ParamsFit ls x.shape ps → (∀ k l, ls[k]? = some l → (ms.getD k []).map STensor.shape = l.momShapes (outShapes (ls.take k) x.shape)) →
    D.shape = x.shape → Fits ls x.shape → Safe ls x.shape → Smooth ls ps x →
    Follows 0 0 loss y [] [] [] [] (netFn ls ps x) (outDer ls ps x D) 1 → Descends loss y ls ts ps ms x D (smaller ls)
  | [], ts, [], ms, x, D, ht, hm, hs, hms, hD, hf, hsafe, hsm, H => by
    obtain rfl : ts = [] := by simpa using ht
    obtain rfl : ms = [] := by simpa using hm
    simp only [smaller, Nat.cast_one]
    refine ⟨rfl, 0, le_refl _, fun _ t => .nil, fun xt v h0 hsh hv => ?_⟩
    rw [sub_zero]
    exact H 0 xt v h0 hsh hv
  | [], _, _ :: _, _, _, _, _, _, hs, _, _, _, _, _, _ => hs.elim
  | _ :: _, [], _, _, _, _, ht, _, _, _, _, _, _, _, _ => by simp at ht
  | _ :: _, _ :: _, [], _, _, _, _, _, hs, _, _, _, _, _, _ => hs.elim
  | _ :: _, _ :: _, _ :: _, [], _, _, _, hm, _, _, _, _, _, _, _ => by simp at hm
  | l :: ls, t :: ts, p :: ps, m :: ms, x, D, ht, hm, hs, hms, hD, hf, hsafe, hsm, H => by
    have hfn := fn_shape hs.1
    have F := descends_net (loss := loss) (y := y) ls ts ps ms (l.fn p x) (l.der p x D) (by simpa using ht) (by simpa using hm)
      (by rw [hfn]; exact hs.2) (fun k l' hk => by rw [hfn]; exact hms (k + 1) l' (by simpa using hk))
      (by rw [hfn]; exact der_shape hs.1 hD) (by rw [hfn]; exact hf.2) (by rw [hfn]; exact hsafe.2) hsm.2 H
    by_cases hw : t = true ∧ l.weighted = true
    · obtain ⟨rfl, hw⟩ := hw
      obtain ⟨L, a, I⟩ := isLin_of hf.1 hw
      obtain ⟨ws, hws, _⟩ := I.par
      have hp := hs.1
      rw [hws] at hp
      obtain ⟨w, b, rfl, h1, h2⟩ := pair_of hp
      have := descends_lin I (by rw [hws, h1, h2]) (hms 0 l rfl) hsm.1 F (smaller_pos ls)
      unfold smaller
      rw [I.flat]
      push_cast at this ⊢
      exact this
    · have := descends_fix (t := t) (m := m) F (exact_of hs.1 hD hf.1 hsafe.1 hsm.1) hfn (fun al d r => by
        cases t
        · rfl
        · have hw : ¬ l.weighted = true := fun h => hw ⟨rfl, h⟩
          cases l
          case dense => exact absurd rfl hw
          case conv => exact absurd rfl hw
          case deconv => exact absurd rfl hw
          all_goals rfl)
      unfold smaller
      push_cast at this ⊢
      exact this

/-- layers that do not learn may come first -/
theorem descends_from {loss : STensor ℝ → ℝ} {y : STensor ℝ} : ∀ (k : Nat) (ls : List (LSpec ℝ)) (ts : List Bool) (ps ms : List (List (STensor ℝ))) (x D : STensor ℝ),
    ts.length = ls.length → ms.length = ls.length → ParamsFit ls x.shape ps → (∀ k l, ls[k]? = some l → (ms.getD k []).map STensor.shape = l.momShapes (outShapes (ls.take k) x.shape)) →
    D.shape = x.shape → Fits ls x.shape → Safe ls x.shape → (∀ j < k, ∀ l, ls[j]? = some l → ts[j]? = some true → l.weighted = false) →
    Smooth (ls.drop k) (ps.drop k) (netFn (ls.take k) (ps.take k) x) →
    Follows 0 0 loss y [] [] [] [] (netFn ls ps x) (outDer ls ps x D) 1 →
    (learn 0 0 y ls ts ps ms x D).1 = ps ∧ ∃ S : ℝ, 0 ≤ S ∧ (S = 0 → ∀ t, SameWeights ps (learn t 0 y ls ts ps ms x D).1) ∧
      HasDerivAt (fun t => loss (netFn ls (learn t 0 y ls ts ps ms x D).1 x)) (-S) 0
  | 0, ls, ts, ps, ms, x, D, ht, hm, hs, hms, hD, hf, hsafe, hfr, hsm, H => by
    obtain ⟨h0, S, h1, h2, h3⟩ := descends_net (loss := loss) (y := y) ls ts ps ms x D ht hm hs hms hD hf hsafe hsm H
    refine ⟨h0, S, h1, h2, ?_⟩
    have := h3 (fun _ => x) (fun _ => 0) rfl (fun _ => rfl) (fun i _ => by simpa using hasDerivAt_const (0 : ℝ) (x.get i))
    simpa using this
  | _ + 1, [], ts, [], ms, x, D, ht, hm, hs, hms, hD, hf, hsafe, hfr, hsm, H => by
    obtain rfl : ts = [] := by simpa using ht
    obtain rfl : ms = [] := by simpa using hm
    refine ⟨rfl, 0, le_refl _, fun _ _ => .nil, ?_⟩
    simpa [learn] using hasDerivAt_const (0 : ℝ) (loss (netFn [] [] x))
  | _ + 1, [], _, _ :: _, _, _, _, _, _, hs, _, _, _, _, _, _, _ => hs.elim
  | _ + 1, _ :: _, [], _, _, _, _, ht, _, _, _, _, _, _, _, _, _ => by simp at ht
  | _ + 1, _ :: _, _ :: _, [], _, _, _, _, _, hs, _, _, _, _, _, _, _ => hs.elim
  | _ + 1, _ :: _, _ :: _, _ :: _, [], _, _, _, hm, _, _, _, _, _, _, _, _ => by simp at hm
  | k + 1, l :: ls, t :: ts, p :: ps, m :: ms, x, D, ht, hm, hs, hms, hD, hf, hsafe, hfr, hsm, H => by
    have hfn := fn_shape hs.1
    obtain ⟨h0, S, h1, h2, h3⟩ := descends_from (loss := loss) (y := y) k ls ts ps ms (l.fn p x) (l.der p x D) (by simpa using ht) (by simpa using hm)
      (by rw [hfn]; exact hs.2) (fun k l' hk => by rw [hfn]; exact hms (k + 1) l' (by simpa using hk))
      (by rw [hfn]; exact der_shape hs.1 hD) (by rw [hfn]; exact hf.2) (by rw [hfn]; exact hsafe.2)
      (fun j hj l' hl ht => hfr (j + 1) (by omega) l' (by simpa using hl) (by simpa using ht)) hsm H
    have hfix : ∀ al d r, (if t then l.learned al 0 p m d r x else p) = p := fun al d r => by
      cases t
      · rfl
      · have hw : l.weighted = false := hfr 0 (by omega) l rfl rfl
        cases l
        case dense => cases hw
        case conv => cases hw
        case deconv => cases hw
        all_goals rfl
    have hlearn : ∀ al, (learn al 0 y (l :: ls) (t :: ts) (p :: ps) (m :: ms) x D).1 = p :: (learn al 0 y ls ts ps ms (l.fn p x) (l.der p x D)).1 := fun al => by
      simp only [learn, hfix]
    refine ⟨by rw [hlearn, h0], S, h1, fun h t => ?_, ?_⟩
    · rw [hlearn]
      exact .cons (same_refl p) (h2 h t)
    · simp only [hlearn]
      exact h3

theorem lt_of_deriv_neg {f : ℝ → ℝ} {S : ℝ} (hS : 0 < S) (h : HasDerivAt f (-S) 0) : ∃ e > 0, ∀ t, 0 < t → t < e → f t < f 0 := by
  have h1 := (hasDerivAt_iff_tendsto_slope.1 h).eventually (Iio_mem_nhds (show -S < 0 by linarith))
  rw [eventually_nhdsWithin_iff] at h1
  obtain ⟨e, he, h2⟩ := Metric.eventually_nhds_iff.1 h1
  refine ⟨e, he, fun t h0 ht => ?_⟩
  have h3 : slope f 0 t < 0 := h2 (by rw [dist_zero_right]; rwa [Real.norm_of_nonneg h0.le]) (by simpa using h0.ne')
  rw [slope_def_field, sub_zero, div_neg_iff] at h3
  rcases h3 with h3 | h3
  · linarith [h3.2]
  · linarith [h3.1]

end Godeep
