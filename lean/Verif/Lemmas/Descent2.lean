import Verif.Lemmas.Descent
import Verif.Lemmas.GRun
/-
  Back-propagation through a sequential network computes derivatives.
-/
set_option linter.unusedSectionVars false

namespace Godeep
open Spec Props

/-- `loss` of the output of `ls` moves by minus `c` times the errors that are passed back -/
def Follows (al mu : ℝ) (loss : STensor ℝ → ℝ) (y : STensor ℝ) (ls : List (LSpec ℝ)) (ts : List Bool) (ps ms : List (List (STensor ℝ))) (x D : STensor ℝ) (c : ℝ) : Prop :=
  ∀ (t0 : ℝ) (xt : ℝ → STensor ℝ) (v : List Nat → ℝ), xt t0 = x → (∀ t, (xt t).shape = x.shape) →
    (∀ i, InRange x.shape i → HasDerivAt (fun t => (xt t).get i) (D.get i * v i) t0) →
    HasDerivAt (fun t => loss (netFn ls ps (xt t))) (-(c * ∑ i ∈ idxs x.shape, (learn al mu y ls ts ps ms x D).2.2.get i * v i)) t0

theorem uses_real (ls : List (LSpec ℝ)) : uses ls = (behind ls : ℝ) := by
  unfold uses behind
  have : ∀ (l : List (LSpec ℝ)) (a : ℝ), l.foldl (fun r _ => GoNum.add r (GoNum.add GoNum.zero GoNum.one)) a = a + l.length := by
    intro l
    induction l with
    | nil => intro a; simp
    | cons b l ih =>
      intro a
      rw [List.foldl_cons, ih]
      show a + (0 + 1) + _ = _
      push_cast [List.length_cons]; ring
  rw [this]
  show (0 + 1 : ℝ) + _ = _
  push_cast; ring

theorem shared_real (ls : List (LSpec ℝ)) (d : STensor ℝ) : (shared (uses ls) d).shape = d.shape ∧ ∀ i, (shared (uses ls) d).get i = d.get i / behind ls := by
  rw [uses_real]
  unfold shared
  split
  · exact ⟨rfl, fun i => rfl⟩
  · next h =>
    refine ⟨rfl, fun i => ?_⟩
    have h : ¬ ((1 : ℝ) < (behind ls : ℝ)) := fun g => h (decide_eq_true g)
    have : behind ls = 1 := by
      have h1 : 1 ≤ behind ls := by unfold behind; omega
      have : ¬ 1 < behind ls := fun g => h (by exact_mod_cast g)
      omega
    rw [this]; simp

theorem behind_pos (ls : List (LSpec ℝ)) : (0 : ℝ) < behind ls := by
  have : 0 < behind ls := by unfold behind; omega
  exact_mod_cast this

theorem smaller_pos : ∀ ls : List (LSpec ℝ), (0 : ℝ) < smaller ls
  | [] => by simp [smaller]
  | l :: ls => by
    have := smaller_pos ls
    have := behind_pos ls
    unfold smaller
    push_cast
    split <;> positivity

theorem back_shape (l : LSpec ℝ) (p : List (STensor ℝ)) (d r x D : STensor ℝ) (hd : d.shape = (l.fn p x).shape) (hr : r.shape = (l.fn p x).shape) :
    (l.back p d r x D).shape = x.shape := by
  cases l <;> rcases p with _ | ⟨w, _ | ⟨b, _ | ⟨c, p⟩⟩⟩ <;> first | rfl | exact hd | exact hr

theorem learn_shape (al mu : ℝ) (y : STensor ℝ) : ∀ (ls : List (LSpec ℝ)) (ts : List Bool) (ps ms : List (List (STensor ℝ))) (x D : STensor ℝ),
    (learn al mu y ls ts ps ms x D).2.2.shape = x.shape
  | [], _, _, _, _, _ => rfl
  | _ :: _, [], _, _, _, _ => rfl
  | _ :: _, _ :: _, [], _, _, _ => rfl
  | _ :: _, _ :: _, _ :: _, [], _, _ => rfl
  | l :: ls, t :: ts, p :: ps, m :: ms, x, D => by
    have := learn_shape al mu y ls ts ps ms (l.fn p x) (l.der p x D)
    exact back_shape l p _ _ x D this ((shared_real ls _).1.trans this)

theorem follows_cons {al mu : ℝ} {loss : STensor ℝ → ℝ} {y : STensor ℝ} {l : LSpec ℝ} {ls : List (LSpec ℝ)} {t : Bool} {ts : List Bool} {p m : List (STensor ℝ)}
    {ps ms : List (List (STensor ℝ))} {x D : STensor ℝ} {c : ℝ} (F : Follows al mu loss y ls ts ps ms (l.fn p x) (l.der p x D) c) (E : Exact l p x D)
    (hfn : (l.fn p x).shape = l.outShape x.shape) :
    Follows al mu loss y (l :: ls) (t :: ts) (p :: ps) (m :: ms) x D (c * (if l.isFlatten then 1 else behind ls : Nat)) := by
  intro t0 xt v h0 hsh hv
  obtain ⟨v2, h1, h2, h3⟩ := E t0 xt v h0 hsh hv
  have key := F t0 (fun t => l.fn p (xt t)) v2 (by rw [h0]) (fun t => by rw [h1 t, hfn]) (by rw [hfn]; exact h2)
  obtain ⟨q, hq⟩ : ∃ q, q = learn al mu y ls ts ps ms (l.fn p x) (l.der p x D) := ⟨_, rfl⟩
  rw [← hq, hfn] at key
  have hqs : q.2.2.shape = l.outShape x.shape := by rw [hq, learn_shape, hfn]
  have e := h3 q.2.2 (shared (uses ls) q.2.2) hqs ((shared_real ls _).1.trans hqs)
  have e2 : (learn al mu y (l :: ls) (t :: ts) (p :: ps) (m :: ms) x D).2.2 = l.back p q.2.2 (shared (uses ls) q.2.2) x D := by rw [hq]; rfl
  rw [e2, ← e]
  convert key using 1
  congr 1
  by_cases hf : l.isFlatten = true
  · simp [hf]
  · simp only [hf, Bool.false_eq_true, if_false, (shared_real ls _).2]
    have hb := (behind_pos ls).ne'
    have e3 : ∑ o ∈ idxs (l.outShape x.shape), q.2.2.get o * v2 o = behind ls * ∑ o ∈ idxs (l.outShape x.shape), q.2.2.get o / behind ls * v2 o := by
      rw [Finset.mul_sum]
      refine Finset.sum_congr rfl fun o _ => ?_
      field_simp
    rw [e3, mul_assoc]

/-! ### the end of the network -/

theorem follows_square {al mu : ℝ} {y x D : STensor ℝ} (ts : List Bool) (ps ms : List (List (STensor ℝ))) (hD : ∀ i, InRange x.shape i → D.get i = 1) :
    Follows al mu (halfSquare y) y [] ts ps ms x D 1 := by
  intro t0 xt v h0 hsh hv
  have e : (fun t => halfSquare y (netFn [] ps (xt t))) = fun t => (∑ k ∈ idxs x.shape, (y.get k - (xt t).get k) ^ 2) / 2 := by
    funext t
    show ((allIdx (xt t).shape).map fun idx => (y.get idx - (xt t).get idx) ^ 2).sum / 2 = _
    rw [sum_allIdx, hsh t]
  rw [e]
  have hd : HasDerivAt (fun t => (∑ k ∈ idxs x.shape, (y.get k - (xt t).get k) ^ 2) / 2)
      ((∑ k ∈ idxs x.shape, (2 : ℕ) * (y.get k - (xt t0).get k) ^ 1 * (-(D.get k * v k))) / 2) t0 := by
    refine HasDerivAt.div_const (HasDerivAt.fun_sum fun k hk => ?_) 2
    exact ((hv k (mem_idxs.1 hk)).const_sub (y.get k)).pow 2
  convert hd using 1
  rw [one_mul, ← Finset.sum_neg_distrib, Finset.sum_div]
  refine Finset.sum_congr rfl fun k hk => ?_
  rw [hD k (mem_idxs.1 hk), h0]
  show -((y.get k - x.get k) * v k) = _
  push_cast
  ring

theorem follows_entropy {al mu : ℝ} {y x D : STensor ℝ} (ts : List Bool) (ps ms : List (List (STensor ℝ)))
    (hD : ∀ i, InRange x.shape i → 0 < x.get i ∧ x.get i < 1 ∧ D.get i = x.get i * (1 - x.get i)) :
    Follows al mu (crossEntropy y) y [] ts ps ms x D 1 := by
  intro t0 xt v h0 hsh hv
  have e : (fun t => crossEntropy y (netFn [] ps (xt t))) =
      fun t => -∑ k ∈ idxs x.shape, (y.get k * Real.log ((xt t).get k) + (1 - y.get k) * Real.log (1 - (xt t).get k)) := by
    funext t
    show -((allIdx (xt t).shape).map fun idx => y.get idx * Real.log ((xt t).get idx) + (1 - y.get idx) * Real.log (1 - (xt t).get idx)).sum = _
    rw [sum_allIdx, hsh t]
  rw [e, one_mul]
  refine HasDerivAt.fun_neg (HasDerivAt.fun_sum fun k hk => ?_)
  obtain ⟨h1, h2, h3⟩ := hD k (mem_idxs.1 hk)
  have hk := hv k (mem_idxs.1 hk)
  have g1 := (hk.log (by rw [h0]; exact h1.ne')).const_mul (y.get k)
  have g2 := ((hk.const_sub 1).log (by rw [h0]; linarith)).const_mul (1 - y.get k)
  have g : HasDerivAt (fun t => y.get k * Real.log ((xt t).get k) + (1 - y.get k) * Real.log (1 - (xt t).get k)) _ t0 := g1.add g2
  have e2 : (y.get k - x.get k) * v k = y.get k * (D.get k * v k / (xt t0).get k) + (1 - y.get k) * (-(D.get k * v k) / (1 - (xt t0).get k)) := by
    rw [h0, h3]
    have : 1 - x.get k ≠ 0 := by linarith
    field_simp
    ring
  show HasDerivAt _ ((y.get k - x.get k) * v k) t0
  rw [e2]
  exact g

/-! ### chains -/

/-- the derivative that is handed on by the last layer -/
noncomputable def outDer : List (LSpec ℝ) → List (List (STensor ℝ)) → STensor ℝ → STensor ℝ → STensor ℝ
  | l :: ls, p :: ps, x, D => outDer ls ps (l.fn p x) (l.der p x D)
  | _, _, _, D => D

theorem pair_of {p : List (STensor ℝ)} {a b : List Nat} (h : p.map STensor.shape = [a, b]) : ∃ w c, p = [w, c] ∧ w.shape = a ∧ c.shape = b := by
  rcases p with _ | ⟨w, _ | ⟨c, _ | ⟨e, p⟩⟩⟩
  · simp at h
  · simp at h
  · simp only [List.map_cons, List.map_nil, List.cons.injEq, and_true] at h
    exact ⟨w, c, rfl, h⟩
  · simp at h

theorem fn_shape {l : LSpec ℝ} {p : List (STensor ℝ)} {x : STensor ℝ} (hp : p.map STensor.shape = l.paramShapes x.shape) : (l.fn p x).shape = l.outShape x.shape := by
  cases l
  case dense n a => obtain ⟨w, b, rfl, _, h⟩ := pair_of hp; exact h
  case conv => obtain ⟨w, b, rfl, _, h⟩ := pair_of hp; exact h
  case deconv => obtain ⟨w, b, rfl, _, h⟩ := pair_of hp; exact h
  all_goals rfl

theorem der_shape {l : LSpec ℝ} {p : List (STensor ℝ)} {x D : STensor ℝ} (hp : p.map STensor.shape = l.paramShapes x.shape) (hD : D.shape = x.shape) :
    (l.der p x D).shape = l.outShape x.shape := by
  cases l
  case dense n a => obtain ⟨w, b, rfl, _, h⟩ := pair_of hp; exact h
  case conv => obtain ⟨w, b, rfl, _, h⟩ := pair_of hp; exact h
  case deconv => obtain ⟨w, b, rfl, _, h⟩ := pair_of hp; exact h
  case flatten => exact congrArg (fun s => [size s]) hD
  case softMax => exact hD
  case norm => exact hD
  case eNorm => exact hD
  case sub d f t => exact congrArg (fun s : List Nat => s.set d (t - f)) hD
  case maxPool => rfl
  case upSampling s => exact congrArg (fun r : List Nat => [r.getD 0 0, r.getD 1 0 * s, r.getD 2 0 * s]) hD

theorem isLin_of {l : LSpec ℝ} {s : List Nat} (hf : l.fits s) (hw : l.weighted = true) : ∃ L a, IsLin l s L a := by
  cases l
  case dense n a => exact ⟨_, _, isLin_dense n a s⟩
  case conv nf kw kh sx sy a => exact ⟨_, _, isLin_conv nf kw kh sx sy a hf⟩
  case deconv nf kw kh sx sy a => exact ⟨_, _, isLin_deconv nf kw kh sx sy a hf⟩
  all_goals cases hw

theorem exact_of {l : LSpec ℝ} {p : List (STensor ℝ)} {x D : STensor ℝ} (hp : p.map STensor.shape = l.paramShapes x.shape) (hD : D.shape = x.shape)
    (hf : l.fits x.shape) (hsafe : l.safe x.shape) (hs : l.SmoothAt p x) : Exact l p x D := by
  by_cases hw : l.weighted = true
  · obtain ⟨L, a, I⟩ := isLin_of hf hw
    obtain ⟨ws, hws, _⟩ := I.par
    rw [hws] at hp
    obtain ⟨w, b, rfl, _, hb⟩ := pair_of hp
    exact I.exact hb hs
  · cases l
    case dense => exact absurd rfl hw
    case conv => exact absurd rfl hw
    case deconv => exact absurd rfl hw
    case flatten => exact exact_flatten p hD
    case sub d f t => exact exact_sub d f t p hf
    case maxPool sx sy => exact exact_maxPool sx sy p hf hsafe hs
    case upSampling s => exact exact_upSampling s p hf
    all_goals exact hs.elim

theorem follows_net {al mu : ℝ} {loss : STensor ℝ → ℝ} {y : STensor ℝ} : ∀ (ls : List (LSpec ℝ)) (ts : List Bool) (ps ms : List (List (STensor ℝ))) (x D : STensor ℝ),
    ts.length = ls.length → ms.length = ls.length → ParamsFit ls x.shape ps → D.shape = x.shape → Fits ls x.shape → Safe ls x.shape → Smooth ls ps x →
    Follows al mu loss y [] [] [] [] (netFn ls ps x) (outDer ls ps x D) 1 → Follows al mu loss y ls ts ps ms x D (smaller ls)
  | [], ts, [], ms, x, D, ht, hm, hs, hD, hf, hsafe, hsm, H => by
    obtain rfl : ts = [] := by simpa using ht
    obtain rfl : ms = [] := by simpa using hm
    simp only [smaller, Nat.cast_one]
    exact H
  | [], _, _ :: _, _, _, _, _, _, hs, _, _, _, _, _ => hs.elim
  | _ :: _, [], _, _, _, _, ht, _, _, _, _, _, _, _ => by simp at ht
  | _ :: _, _ :: _, [], _, _, _, _, _, hs, _, _, _, _, _ => hs.elim
  | _ :: _, _ :: _, _ :: _, [], _, _, _, hm, _, _, _, _, _, _ => by simp at hm
  | l :: ls, t :: ts, p :: ps, m :: ms, x, D, ht, hm, hs, hD, hf, hsafe, hsm, H => by
    have hfn := fn_shape hs.1
    have F := follows_net (al := al) (mu := mu) (loss := loss) (y := y) ls ts ps ms (l.fn p x) (l.der p x D) (by simpa using ht) (by simpa using hm)
      (by rw [hfn]; exact hs.2) (by rw [hfn]; exact der_shape hs.1 hD) (by rw [hfn]; exact hf.2) (by rw [hfn]; exact hsafe.2) hsm.2 H
    have := follows_cons (t := t) (m := m) F (exact_of hs.1 hD hf.1 hsafe.1 hsm.1) hfn
    unfold smaller
    push_cast at this ⊢
    exact this

/-! ### the step of one layer -/

/-- what a layer divides its errors by before it changes its own weights -/
def ownShare (l : LSpec ℝ) (ls : List (LSpec ℝ)) : ℝ := match l with | .dense _ _ => (behind ls : ℝ) | _ => 1

theorem errs_real (l : LSpec ℝ) (ls : List (LSpec ℝ)) (d : STensor ℝ) (i : List Nat) :
    (l.errs d (shared (uses ls) d)).get i = d.get i / ownShare l ls := by
  cases l
  case dense => exact (shared_real ls d).2 i
  all_goals simp [LSpec.errs, ownShare]

theorem grad_div (L : Lin) (r x : List Nat → ℝ) (q : List Nat) (c : ℝ) : L.grad (fun i => r i / c) x q = L.grad r x q / c := by
  unfold Lin.grad
  rw [Finset.sum_div]
  exact Finset.sum_congr rfl fun k _ => by ring

theorem put_self (A : STensor ℝ) (q : List Nat) : A.put q (A.get q) = A := by
  refine (tensor_ext rfl (funext fun i => ?_)).symm
  split
  · next h => rw [h]
  · rfl

theorem step_one {al mu : ℝ} {loss : STensor ℝ → ℝ} {y : STensor ℝ} {l : LSpec ℝ} {ls : List (LSpec ℝ)} {ts : List Bool} {w b : STensor ℝ} {m : List (STensor ℝ)}
    {ps ms : List (List (STensor ℝ))} {x D : STensor ℝ} {c : ℝ} {L : Lin} {a : Activation ℝ} (I : IsLin l x.shape L a)
    (hp : l.paramShapes x.shape = [w.shape, b.shape]) (hm : m.map STensor.shape = l.momShapes x.shape) (hs : l.SmoothAt [w, b] x)
    (F : Follows al mu loss y ls ts ps ms (l.fn [w, b] x) (l.der [w, b] x D) c) (hc : c ≠ 0) {j : Nat} {A : STensor ℝ} (hA : [w, b][j]? = some A)
    {idx : List Nat} (hi : InRange A.shape idx) :
    ∃ g A', HasDerivAt (fun t => loss (netFn (l :: ls) (putWeight ([w, b] :: ps) 0 j idx t) x)) g (A.get idx) ∧
      ((learn al mu y (l :: ls) (true :: ts) ([w, b] :: ps) (m :: ms) x D).1[0]?.bind (·[j]?)) = some A' ∧
      A'.get idx = A.get idx - al * (g / (c * ownShare l ls)) + mu * lastChange [m] 0 j idx := by
  obtain ⟨q, hq⟩ : ∃ q, q = learn al mu y ls ts ps ms (l.fn [w, b] x) (l.der [w, b] x D) := ⟨_, rfl⟩
  obtain ⟨ws, hws, _⟩ := I.par
  have hpar := hp
  rw [hws] at hp
  simp only [List.cons.injEq, and_true] at hp
  have hb : b.shape = l.outShape x.shape := hp.2.symm
  have hfn := I.fnS w b x hb
  have hqs : q.2.2.shape = l.outShape x.shape := by rw [hq, learn_shape, hfn]
  obtain ⟨A0, B0, e1, _, _, e2, e3⟩ := I.grad w b m q.2.2 (shared (uses ls) q.2.2) x al mu rfl hqs ((shared_real ls _).1.trans hqs) hm hpar
  have e4 : (learn al mu y (l :: ls) (true :: ts) ([w, b] :: ps) (m :: ms) x D).1[0]? = some [A0, B0] := by
    rw [← e1, hq]; rfl
  rw [e4]
  obtain ⟨k, hk⟩ : ∃ k : ℝ, k = ownShare l ls := ⟨_, rfl⟩
  have hk0 : k ≠ 0 := by
    have : ∀ l' : LSpec ℝ, ownShare l' ls ≠ 0 := by
      intro l'
      cases l'
      case dense => exact (behind_pos ls).ne'
      all_goals exact one_ne_zero
    rw [hk]
    exact this l
  have herr : (l.errs q.2.2 (shared (uses ls) q.2.2)).get = fun i => q.2.2.get i / k := funext fun i => by rw [hk]; exact errs_real l ls q.2.2 i
  have sm := I.smooth w b x rfl hs
  rcases j with _ | _ | j
  · simp only [List.getElem?_cons_zero, Option.some.injEq] at hA
    subst hA
    have key := F (w.get idx) (fun t => l.fn [w.put idx t, b] x) (fun o => ∑ k ∈ L.E with L.out k = o, if L.wt k = idx then x.get (L.inp k) else 0)
      (by rw [put_self]) (fun t => by rw [I.fnS _ b x hb, hfn]) (fun o ho => by
        rw [hfn] at ho
        rw [I.der w b x D rfl o ho]
        have e : (fun t => (l.fn [w.put idx t, b] x).get o) = fun t => a.activate (L.val (fun i => if i = idx then t else w.get i) b.get x.get o) :=
          funext fun t => I.fn _ b x rfl o ho
        rw [e]
        have h1 := L.weight_deriv w.get b.get x.get idx o
        have h2 := sm o ho
        have e0 : (fun i => if i = idx then w.get idx else w.get i) = w.get := funext fun i => by
          split
          · next h => rw [h]
          · rfl
        have h2' : HasDerivAt a.activate (a.derive (L.val w.get b.get x.get o)) (L.val (fun i => if i = idx then w.get idx else w.get i) b.get x.get o) := by rw [e0]; exact h2
        exact h2'.comp (w.get idx) h1)
    rw [← hq, hfn, L.weight_sum I.out] at key
    refine ⟨_, A0, key, rfl, ?_⟩
    rw [e2 idx hi, herr, grad_div, ← hk]
    simp only [lastChange, if_neg (show (0 : Nat) ≠ 1 by omega)]
    field_simp
    ring
  · simp only [List.getElem?_cons_succ, List.getElem?_cons_zero, Option.some.injEq] at hA
    subst hA
    have key := F (b.get idx) (fun t => l.fn [w, b.put idx t] x) (fun o => if o = idx then 1 else 0)
      (by rw [put_self]) (fun t => by rw [I.fnS w (b.put idx t) x hb, hfn]) (fun o ho => by
        rw [hfn] at ho
        rw [I.der w b x D rfl o ho]
        have e : (fun t => (l.fn [w, b.put idx t] x).get o) = fun t => a.activate (L.val w.get (fun i => if i = idx then t else b.get i) x.get o) :=
          funext fun t => I.fn w _ x rfl o ho
        rw [e]
        have h1 := L.bias_deriv w.get b.get x.get idx o
        have h2 := sm o ho
        have e0 : (fun i => if i = idx then b.get idx else b.get i) = b.get := funext fun i => by
          split
          · next h => rw [h]
          · rfl
        have h2' : HasDerivAt a.activate (a.derive (L.val w.get b.get x.get o)) (L.val w.get (fun i => if i = idx then b.get idx else b.get i) x.get o) := by rw [e0]; exact h2
        exact h2'.comp (b.get idx) h1)
    rw [← hq, hfn, Lin.bias_sum _ (by rw [← hb]; exact hi)] at key
    refine ⟨_, B0, key, rfl, ?_⟩
    rw [e3 idx, herr, ← hk]
    field_simp
    ring
  · simp at hA

theorem step_any {al mu : ℝ} {loss : STensor ℝ → ℝ} {y : STensor ℝ} : ∀ (k : Nat) (ls : List (LSpec ℝ)) (ts : List Bool) (ps ms : List (List (STensor ℝ))) (x D : STensor ℝ)
    (l : LSpec ℝ) (p m : List (STensor ℝ)) (j : Nat) (A : STensor ℝ) (idx : List Nat),
    ts.length = ls.length → ms.length = ls.length → ParamsFit ls x.shape ps → D.shape = x.shape → Fits ls x.shape → Safe ls x.shape →
    Smooth (ls.drop k) (ps.drop k) (netFn (ls.take k) (ps.take k) x) → Follows al mu loss y [] [] [] [] (netFn ls ps x) (outDer ls ps x D) 1 →
    ls[k]? = some l → ts[k]? = some true → ps[k]? = some p → ms[k]? = some m → m.map STensor.shape = l.momShapes (outShapes (ls.take k) x.shape) →
    p[j]? = some A → InRange A.shape idx →
    ∃ g A', HasDerivAt (fun t => loss (netFn ls (putWeight ps k j idx t) x)) g (A.get idx) ∧
      ((learn al mu y ls ts ps ms x D).1[k]?.bind (·[j]?)) = some A' ∧
      A'.get idx = A.get idx - al * (g / slowdown ls k) + mu * lastChange ms k j idx
  | _, [], _, _, _, _, _, _, _, _, _, _, _, _, _, _, _, _, _, _, _, hl, _, _, _, _, _, _ => by simp at hl
  | _, _ :: _, [], _, _, _, _, _, _, _, _, _, _, ht, _, _, _, _, _, _, _, _, _, _, _, _, _, _ => by simp at ht
  | _, _ :: _, _ :: _, [], _, _, _, _, _, _, _, _, _, _, _, hs, _, _, _, _, _, _, _, _, _, _, _, _ => hs.elim
  | _, _ :: _, _ :: _, _ :: _, [], _, _, _, _, _, _, _, _, _, hm, _, _, _, _, _, _, _, _, _, _, _, _, _ => by simp at hm
  | 0, l :: ls, t :: ts, p :: ps, m :: ms, x, D, l', p', m', j, A, idx, ht, hm, hs, hD, hf, hsafe, hsm, H, hl, htk, hpk, hmk, hms, hA, hi => by
    simp only [List.getElem?_cons_zero, Option.some.injEq] at hl htk hpk hmk
    subst hl htk hpk hmk
    have hfn := fn_shape hs.1
    have hsm' : l.SmoothAt p x ∧ Smooth ls ps (l.fn p x) := hsm
    have F := follows_net (al := al) (mu := mu) (loss := loss) (y := y) ls ts ps ms (l.fn p x) (l.der p x D) (by simpa using ht) (by simpa using hm)
      (by rw [hfn]; exact hs.2) (by rw [hfn]; exact der_shape hs.1 hD) (by rw [hfn]; exact hf.2) (by rw [hfn]; exact hsafe.2) hsm'.2 H
    have hw : l.weighted = true := by
      cases l
      case dense => rfl
      case conv => rfl
      case deconv => rfl
      all_goals
        have h0 := hs.1
        simp only [LSpec.paramShapes, List.map_eq_nil_iff] at h0
        subst h0
        simp at hA
    obtain ⟨L, a, I⟩ := isLin_of hf.1 hw
    obtain ⟨ws, hws, _⟩ := I.par
    have hp := hs.1
    rw [hws] at hp
    obtain ⟨w, b, rfl, h1, h2⟩ := pair_of hp
    obtain ⟨g, A', r1, r2, r3⟩ := step_one I (by rw [hws, h1, h2]) hms hsm'.1 F (smaller_pos ls).ne' hA hi
    refine ⟨g, A', r1, r2, ?_⟩
    rw [r3]
    have e1 : ((slowdown (l :: ls) 0 : Nat) : ℝ) = smaller ls * ownShare l ls := by
      unfold slowdown
      cases l <;> simp [ownShare]
    rw [e1]
    rfl
  | k + 1, l :: ls, t :: ts, p :: ps, m :: ms, x, D, l', p', m', j, A, idx, ht, hm, hs, hD, hf, hsafe, hsm, H, hl, htk, hpk, hmk, hms, hA, hi => by
    have hfn := fn_shape hs.1
    simp only [List.getElem?_cons_succ] at hl htk hpk hmk
    obtain ⟨g, A', r1, r2, r3⟩ := step_any (al := al) (mu := mu) (loss := loss) (y := y) k ls ts ps ms (l.fn p x) (l.der p x D) l' p' m' j A idx (by simpa using ht) (by simpa using hm)
      (by rw [hfn]; exact hs.2) (by rw [hfn]; exact der_shape hs.1 hD) (by rw [hfn]; exact hf.2) (by rw [hfn]; exact hsafe.2) hsm H hl htk hpk hmk
      (by rw [hfn]; exact hms) hA hi
    exact ⟨g, A', r1, r2, r3⟩

end Godeep
