import Verif.Lemmas.Descent2
import Verif.Props.Activation
/-
  The end of the network: which errors the last layer starts with.
-/
set_option linter.unusedSectionVars false

namespace Godeep
open Spec Props

/-- layers without weights that are smooth only copy values and derivatives -/
theorem pass_on {l : LSpec ℝ} {p : List (STensor ℝ)} {x D : STensor ℝ} (hD : D.shape = x.shape)
    (hf : l.fits x.shape) (hsafe : l.safe x.shape) (hs : l.SmoothAt p x) (hw : l.actOf = none) :
    ∀ o, InRange (l.outShape x.shape) o → ∃ i, InRange x.shape i ∧ (l.fn p x).get o = x.get i ∧ (l.der p x D).get o = D.get i := by
  cases l
  case dense => cases hw
  case conv => cases hw
  case deconv => cases hw
  case softMax => exact hs.elim
  case norm => exact hs.elim
  case eNorm => exact hs.elim
  case flatten =>
    intro o ho
    obtain ⟨j, hj, rfl⟩ := inRange_one ho
    have ho : offset [size x.shape] [j] = j := by simp [offset, size]
    refine ⟨unflat x.shape j, unflat_inRange hj, ?_, ?_⟩
    · show (x.reshape [size x.shape]).get [j] = _
      rw [reshape_get _ _ _ (by simpa [offset, size] using hj), ho]
    · show (D.reshape [size D.shape]).get [j] = _
      rw [hD, reshape_get _ _ _ (by rw [hD]; simpa [offset, size] using hj), hD, ho]
  case sub dim lo hi =>
    intro o ho
    obtain ⟨h1, h2, h3⟩ := hf
    exact ⟨o.modify dim (· + lo), (sub_there h1 h2 h3 ho).1, rfl, rfl⟩
  case upSampling n =>
    intro o ho
    obtain ⟨C, H, W, hsp⟩ : ∃ C H W, x.shape = [C, H, W] := ⟨_, _, _, getD3 hf⟩
    rw [hsp] at ho
    refine ⟨[o.getD 0 0, o.getD 1 0 / n, o.getD 2 0 / n], ?_, rfl, rfl⟩
    have ho : InRange [C, H * n, W * n] o := ho
    obtain ⟨a, b, c, rfl, ha, hb, hc⟩ := inRange_three ho
    rw [hsp]
    simp only [inRange_cons, List.getD_cons_zero, List.getD_cons_succ]
    exact ⟨ha, Nat.div_lt_of_lt_mul (by rwa [Nat.mul_comm]), Nat.div_lt_of_lt_mul (by rwa [Nat.mul_comm]), .nil⟩
  case maxPool sx sy =>
    intro o ho
    obtain ⟨h3, hsx, hsy⟩ := hf
    obtain ⟨C, H, W, hsp⟩ : ∃ C H W, x.shape = [C, H, W] := ⟨_, _, _, getD3 h3⟩
    have hout : (LSpec.maxPool sx sy : LSpec ℝ).outShape x.shape = [C, (H + 1) / sx, (W + 1) / sy] := by rw [hsp]; rfl
    have hms : (maxPoolFn sx sy x).shape = [C, (H + 1) / sx, (W + 1) / sy] := by rw [← hout]; rfl
    rw [hout] at ho
    have hne : window sx sy H W (o.getD 1 0) (o.getD 2 0) ≠ [] := by
      obtain ⟨a, b, c, rfl, ha, hb, hc⟩ := inRange_three ho
      rcases hsafe with ⟨g1, g2⟩ | h
      · exact window_ne g1 g2 hb hc
      · rw [hsp] at h
        have : C = 0 := h
        omega
    obtain ⟨g1, g2⟩ := max1_spec (fieldNum_weakOrder (K := ℝ)) ((window sx sy H W (o.getD 1 0) (o.getD 2 0)).map fun q => x.get [o.getD 0 0, q.1, q.2]) (by simpa using hne)
    have hm : (maxPoolFn sx sy x).get o = max1 ((window sx sy H W (o.getD 1 0) (o.getD 2 0)).map fun q => x.get [o.getD 0 0, q.1, q.2]) := by
      show max1 _ = _
      rw [hsp]; rfl
    rw [← hm] at g1 g2
    obtain ⟨q, hq, e⟩ := List.mem_map.1 g1
    refine ⟨[o.getD 0 0, q.1, q.2], ?_, e.symm, ?_⟩
    · obtain ⟨_, _, g3, g4⟩ := (mem_window hsx hsy).1 hq
      obtain ⟨a, b, c, rfl, ha, hb, hc⟩ := inRange_three ho
      rw [hsp]
      simp only [inRange_cons, List.getD_cons_zero]
      exact ⟨ha, g3, g4, .nil⟩
    · show sum1 _ = _
      rw [sum1_real, hsp]
      show ((window sx sy H W (o.getD 1 0) (o.getD 2 0)).map fun q => D.get [o.getD 0 0, q.1, q.2] * same (x.get [o.getD 0 0, q.1, q.2]) ((maxPoolFn sx sy x).get o)).sum = _
      rw [← List.sum_toFinset _ (window_nodup ..), Finset.sum_eq_single q]
      · rw [e]
        simp [same_real]
      · intro q' hq' hne
        have : ¬ x.get [o.getD 0 0, q'.1, q'.2] = (maxPoolFn sx sy x).get o := fun h => hne
          (hs o (by rw [hms]; exact ho) q' (by rw [hsp]; exact List.mem_toFinset.1 hq') q (by rw [hsp]; exact hq) h e)
        rw [same_real, if_neg this, mul_zero]
      · intro h
        exact absurd (List.mem_toFinset.2 hq) h

theorem out_inv (P : ℝ → ℝ → Prop) (a : Activation ℝ) (hP : ∀ u, P (a.activate u) (a.derive u)) : ∀ (ls : List (LSpec ℝ)) (ps : List (List (STensor ℝ))) (x D : STensor ℝ),
    ParamsFit ls x.shape ps → D.shape = x.shape → Fits ls x.shape → Safe ls x.shape → Smooth ls ps x →
    (lastAct ls = some a ∨ (ls.filterMap LSpec.actOf = [] ∧ ∀ i, InRange x.shape i → P (x.get i) (D.get i))) →
    ∀ i, InRange (netFn ls ps x).shape i → P ((netFn ls ps x).get i) ((outDer ls ps x D).get i)
  | [], [], x, D, _, _, _, _, _, h => by
    rcases h with h | h
    · simp [lastAct] at h
    · exact h.2
  | [], _ :: _, _, _, hs, _, _, _, _, _ => hs.elim
  | _ :: _, [], _, _, hs, _, _, _, _, _ => hs.elim
  | l :: ls, p :: ps, x, D, hs, hD, hf, hsafe, hsm, h => by
    have hfn := fn_shape hs.1
    refine out_inv P a hP ls ps (l.fn p x) (l.der p x D) (by rw [hfn]; exact hs.2) (by rw [hfn]; exact der_shape hs.1 hD) (by rw [hfn]; exact hf.2)
      (by rw [hfn]; exact hsafe.2) hsm.2 ?_
    rw [hfn]
    cases e : l.actOf with
    | none =>
      unfold lastAct at h ⊢
      rw [List.filterMap_cons_none e] at h
      refine h.imp id fun h => ⟨h.1, fun o ho => ?_⟩
      obtain ⟨i, hi, e1, e2⟩ := pass_on hD hf.1 hsafe.1 hsm.1 e o ho
      rw [e1, e2]
      exact h.2 i hi
    | some b =>
      unfold lastAct at h ⊢
      rw [List.filterMap_cons_some e] at h
      rcases h with h | h
      · by_cases hl : ls.filterMap LSpec.actOf = []
        · right
          refine ⟨hl, fun o ho => ?_⟩
          rw [hl] at h
          simp only [List.getLast?_singleton, Option.some.injEq] at h
          subst h
          obtain ⟨L, b', I⟩ := isLin_of hf.1 (by cases l <;> first | rfl | cases e)
          have : b' = b := by
            have := I.act.symm.trans e
            exact Option.some.inj this
          subst this
          obtain ⟨ws, hws, _⟩ := I.par
          have hp := hs.1
          rw [hws] at hp
          obtain ⟨w, b, rfl, _, hb⟩ := pair_of hp
          rw [I.fn w b x rfl o ho, I.der w b x D rfl o ho]
          exact hP _
        · left
          rw [← h, List.getLast?_cons_of_ne_nil hl]
      · simp at h

theorem outDer_drop : ∀ (k : Nat) (ls : List (LSpec ℝ)) (ps : List (List (STensor ℝ))) (x D : STensor ℝ),
    ParamsFit ls x.shape ps → D.shape = x.shape → ∃ D', D'.shape = (netFn (ls.take k) (ps.take k) x).shape ∧ ParamsFit (ls.drop k) (netFn (ls.take k) (ps.take k) x).shape (ps.drop k) ∧
      (netFn (ls.take k) (ps.take k) x).shape = outShapes (ls.take k) x.shape ∧
      netFn ls ps x = netFn (ls.drop k) (ps.drop k) (netFn (ls.take k) (ps.take k) x) ∧ outDer ls ps x D = outDer (ls.drop k) (ps.drop k) (netFn (ls.take k) (ps.take k) x) D'
  | 0, ls, ps, x, D, hs, hD => ⟨D, by simpa [netFn] using hD, by simpa [netFn] using hs, rfl, rfl, rfl⟩
  | k + 1, [], [], x, D, hs, hD => ⟨D, hD, hs, rfl, rfl, rfl⟩
  | _ + 1, [], _ :: _, _, _, hs, _ => hs.elim
  | _ + 1, _ :: _, [], _, _, hs, _ => hs.elim
  | k + 1, l :: ls, p :: ps, x, D, hs, hD => by
    have hfn := fn_shape hs.1
    obtain ⟨D', h1, h2, h3, h4, h5⟩ := outDer_drop k ls ps (l.fn p x) (l.der p x D) (by rw [hfn]; exact hs.2) (by rw [hfn]; exact der_shape hs.1 hD)
    exact ⟨D', h1, h2, by rw [hfn] at h3; exact h3, h4, h5⟩

theorem fits_drop : ∀ (k : Nat) (ls : List (LSpec ℝ)) (s : List Nat), Fits ls s → Safe ls s → Fits (ls.drop k) (outShapes (ls.take k) s) ∧ Safe (ls.drop k) (outShapes (ls.take k) s)
  | 0, _, _, h, g => ⟨h, g⟩
  | _ + 1, [], _, h, g => ⟨h, g⟩
  | k + 1, l :: ls, s, h, g => fits_drop k ls (l.outShape s) h.2 g.2

theorem smooth_drop : ∀ (k : Nat) (ls : List (LSpec ℝ)) (ps : List (List (STensor ℝ))) (x : STensor ℝ), Smooth ls ps x →
    Smooth (ls.drop k) (ps.drop k) (netFn (ls.take k) (ps.take k) x)
  | 0, _, _, _, h => h
  | _ + 1, [], _, _, _ => by simp [Smooth]
  | _ + 1, _ :: _, [], _, _ => by
    rw [List.drop_nil]
    unfold Smooth
    split
    · simp_all
    · trivial
  | k + 1, l :: ls, p :: ps, x, h => smooth_drop k ls ps (l.fn p x) h.2

theorem lastAct_drop {k : Nat} {ls : List (LSpec ℝ)} {l : LSpec ℝ} {a b : Activation ℝ} (hl : ls[k]? = some l) (hw : l.actOf = some b) (h : lastAct ls = some a) :
    lastAct (ls.drop k) = some a := by
  unfold lastAct at h ⊢
  rw [← List.take_append_drop k ls, List.filterMap_append, List.getLast?_append] at h
  have hk : k < ls.length := (List.getElem?_eq_some_iff.1 hl).1
  have : ls.drop k = l :: ls.drop (k + 1) := by
    rw [List.drop_eq_getElem_cons hk]
    congr 1
    exact (List.getElem?_eq_some_iff.1 hl).2
  rw [this, List.filterMap_cons_some hw] at h ⊢
  rw [List.getLast?_eq_some_getLast (List.cons_ne_nil _ _)] at h ⊢
  simpa using h

/-- One step with the errors of the squared distance. -/
theorem end_of {al mu : ℝ} {loss : STensor ℝ → ℝ} {y x D : STensor ℝ} {ls : List (LSpec ℝ)} {ps : List (List (STensor ℝ))} {k : Nat} {l : LSpec ℝ}
    (hs : ParamsFit ls x.shape ps) (hD : D.shape = x.shape) (hf : Fits ls x.shape) (hsafe : Safe ls x.shape)
    (hsm : Smooth (ls.drop k) (ps.drop k) (netFn (ls.take k) (ps.take k) x)) (hl : ls[k]? = some l) (hw : l.weighted = true)
    {P : ℝ → ℝ → Prop} {a : Activation ℝ} (hP : ∀ u, P (a.activate u) (a.derive u)) (ha : lastAct ls = some a)
    (H : ∀ o D : STensor ℝ, (∀ i, InRange o.shape i → P (o.get i) (D.get i)) → Follows al mu loss y [] [] [] [] o D 1) :
    Follows al mu loss y [] [] [] [] (netFn ls ps x) (outDer ls ps x D) 1 := by
  obtain ⟨D', h1, h2, h3, h4, h5⟩ := outDer_drop k ls ps x D hs hD
  obtain ⟨f1, f2⟩ := fits_drop k ls x.shape hf hsafe
  obtain ⟨b, hb⟩ : ∃ b, l.actOf = some b := by
    cases l <;> first | cases hw; done | exact ⟨_, rfl⟩
  refine H _ _ ?_
  rw [h4, h5]
  exact out_inv P a hP _ _ _ _ h2 h1 (by rw [h3]; exact f1) (by rw [h3]; exact f2) hsm (.inl (lastAct_drop hl hb ha))

theorem end_square {al mu : ℝ} {y o D : STensor ℝ} (h : ∀ i, InRange o.shape i → D.get i = 1) : Follows al mu (halfSquare y) y [] [] [] [] o D 1 :=
  follows_square [] [] [] h

theorem sigmoid_range (u : ℝ) : 0 < (Activation.sigmoid ℝ : Activation ℝ).activate u ∧ (Activation.sigmoid ℝ : Activation ℝ).activate u < 1 := by
  show 0 < 1 / (1 + Real.exp (-u)) ∧ 1 / (1 + Real.exp (-u)) < 1
  have := Real.exp_pos (-u)
  exact ⟨by positivity, by rw [div_lt_one (by positivity)]; linarith⟩

/-! ### shapes -/

theorem paramsFit_of : ∀ (ls : List (LSpec ℝ)) (s : List Nat) (pv : List (List (STensor ℝ))), pv.length = ls.length →
    (∀ k l, ls[k]? = some l → (pv.getD k []).map STensor.shape = l.paramShapes (outShapes (ls.take k) s)) → ParamsFit ls s pv
  | [], _, [], _, _ => trivial
  | [], _, _ :: _, h, _ => by simp at h
  | _ :: _, _, [], h, _ => by simp at h
  | l :: ls, s, p :: pv, h, H => by
    refine ⟨H 0 l rfl, paramsFit_of ls _ pv (by simpa using h) fun k l' hk => ?_⟩
    exact H (k + 1) l' (by simpa using hk)

theorem holds_shapes {h h' : Heap ℝ} {m : List Mat} {p p' : List (STensor ℝ)} (a : List.Forall₂ (Holds h) m p) (b : List.Forall₂ (Holds h') m p') :
    p.map STensor.shape = p'.map STensor.shape := by
  induction a generalizing p' with
  | nil => cases b; rfl
  | cons h1 _ ih =>
    cases b with
    | cons h2 b => rw [List.map_cons, List.map_cons, ih b, ← h1.shape, ← h2.shape]

end Godeep
