import Verif.Props.Graph
import Verif.Props.MatDot
import Verif.Props.MatReduce
import Verif.Props.MatStruct
import Verif.Props.MatOps
/-
  C27: the graph version of an operation and its immediate version give the same tensor.
-/
set_option linter.unusedSectionVars false

namespace Godeep.Props
open Godeep Spec GoNum

variable {T : Type} [GoNum T]

theorem sum0_eq_sum1 (hz : ∀ x : T, GoNum.add zero x = x) : (sum0 : List T → T) = sum1 := by
  funext vs
  cases vs with
  | nil => rfl
  | cons v vs => simp [sum0, sum1, hz]

/-- the immediate version computes the operation's meaning -/
theorem eager_den (hd : ∀ x y : T, divPanics x y = false) (hz : ∀ x : T, GoNum.add zero x = x)
    {k : Kind T} {get : Nat → Mat} {own : List Nat} {h : Heap T} (hpos : 0 < h.next)
    (hk : ∀ c ∈ k.kids, GoodMat h (get c)) (hs : ScalarOK h k)
    (hf : k.fits fun c => (get c).shape) (ha : k.agrees own fun c => (get c).shape)
    (hr : k.redOK fun c => (get c).shape) :
    ∃ r h1 t, k.eager get own h = .ok r h1 ∧
      k.den h.val own (fun c => ofMat h.val (get c)) = some t ∧ Holds h1 r t := by
  have hsum := sum0_eq_sum1 hz
  have done : ∀ {x : Out (Heap T) Mat} {t t' : STensor T} {y : Option (STensor T)}, y = some t' → t = t' →
      (∃ r h1, x = .ok r h1 ∧ NewTensor h h1 r t) →
      ∃ r h1 t, x = .ok r h1 ∧ y = some t ∧ Holds h1 r t := by
    rintro x t t' y h1 rfl ⟨r, h2, h3, h4⟩
    exact ⟨r, h2, t, h3, h1, h4.holds⟩
  cases k with
  | leaf => exact ha.elim
  | fill t v => exact ha.elim
  | copy f t => exact ha.elim
  | op2 o a b =>
    have ga := good_holds (hk a (by simp [Kind.kids]))
    have gb := good_holds (hk b (by simp [Kind.kids]))
    have hd' : (Kind.op2 o a b : Kind T).den h.val own (fun c => ofMat h.val (get c)) =
        some ((ofMat h.val (get a)).zip o.fn (ofMat h.val (get b))) := if_pos hf
    cases o with
    | add => exact done hd' rfl (C10_add _ _ _ _ h ga gb hpos hf)
    | sub => exact done hd' rfl (C10_sub _ _ _ _ h ga gb hpos hf)
    | mul => exact done hd' rfl (C10_mul _ _ _ _ h ga gb hpos hf)
    | div => exact done hd' rfl (C10_div _ _ _ _ h ga gb hpos hf fun _ _ => hd _ _)
  | opScalar o t p =>
    have gt := good_holds (hk t (by simp [Kind.kids]))
    cases o with
    | add => exact done rfl rfl (C11_addScalar _ _ p h gt hpos hs)
    | sub => exact done rfl rfl (C11_subScalar _ _ p h gt hpos hs)
    | mul => exact done rfl rfl (C11_mulScalar _ _ p h gt hpos hs)
    | div => exact done rfl rfl (C11_divScalar _ _ p h gt hpos hs fun _ _ => hd _ _)
  | neg t => exact done rfl rfl (C11_neg _ _ h (good_holds (hk t (by simp [Kind.kids]))) hpos)
  | abs t => exact done rfl rfl (C11_abs _ _ h (good_holds (hk t (by simp [Kind.kids]))) hpos)
  | act f t => exact done rfl rfl (C11_activate f _ _ h (good_holds (hk t (by simp [Kind.kids]))) hpos)
  | softMax t =>
    refine done rfl ?_ (C19_softMax _ _ h (good_holds (hk t (by simp [Kind.kids]))) hpos
      (Nat.pos_of_ne_zero hr) fun v => hd _ _)
    simp only [shiftNorm, shiftNorm1, hsum]
  | math r t =>
    have gt := good_holds (hk t (by simp [Kind.kids]))
    cases r with
    | sum => exact done rfl (by rw [hsum]; rfl) (C18_sum _ _ h gt hpos)
    | avg => exact done rfl (by rw [hsum]; rfl) (C18_avg _ _ h gt hpos (hd _ _))
    | min => exact done rfl rfl (C18_min _ _ h gt hpos (Nat.pos_of_ne_zero hr))
    | max => exact done rfl rfl (C18_max _ _ h gt hpos (Nat.pos_of_ne_zero hr))
  | dimMath r d t =>
    have gt := good_holds (hk t (by simp [Kind.kids]))
    have hd' : (Kind.dimMath r d t : Kind T).den h.val own (fun c => ofMat h.val (get c)) =
        some ((ofMat h.val (get t)).dimReduce r.fn d) := if_pos hf
    cases r with
    | sum => exact done hd' (by rw [hsum]; rfl) (C18_dsum _ _ h gt hpos d hf)
    | avg => exact done hd' (by rw [hsum]; rfl) (C18_davg _ _ h gt hpos d hf fun _ => hd _ _)
    | min =>
      refine done hd' rfl (dimReduce_ok _ min1 _ _ h gt hpos d hf fun i hi => ?_)
      rcases hr with hr | hr
      · obtain ⟨v, vs, hv⟩ := allIdx_map_ne_nil (fun suf => (ofMat h.val (get t)).get (i ++ suf))
          (Nat.pos_of_ne_zero hr)
        have hv' : (allIdx ((ofMat h.val (get t)).shape.drop (d + 1))).map
          (fun suf => (ofMat h.val (get t)).get (i ++ suf)) = v :: vs := hv
        simp only [hv']; rfl
      · exact absurd hr (Nat.pos_iff_ne_zero.1 (size_pos_of_inRange hi))
    | max =>
      refine done hd' rfl (dimReduce_ok _ max1 _ _ h gt hpos d hf fun i hi => ?_)
      rcases hr with hr | hr
      · obtain ⟨v, vs, hv⟩ := allIdx_map_ne_nil (fun suf => (ofMat h.val (get t)).get (i ++ suf))
          (Nat.pos_of_ne_zero hr)
        have hv' : (allIdx ((ofMat h.val (get t)).shape.drop (d + 1))).map
          (fun suf => (ofMat h.val (get t)).get (i ++ suf)) = v :: vs := hv
        simp only [hv']; rfl
      · exact absurd hr (Nat.pos_iff_ne_zero.1 (size_pos_of_inRange hi))
  | dot dims a b =>
    have ga := good_holds (hk a (by simp [Kind.kids]))
    have gb := good_holds (hk b (by simp [Kind.kids]))
    have hdn : (Kind.dot dims a b : Kind T).den h.val own (fun c => ofMat h.val (get c)) =
        some (if (get a).shape.length = 1 ∧ (get b).shape.length = 1
          then (ofMat h.val (get a)).dotVec sum1 (ofMat h.val (get b))
          else (ofMat h.val (get a)).dot sum1 (ofMat h.val (get b)) (dotDims dims (get a).shape (get b).shape).1
            (dotDims dims (get a).shape (get b).shape).2) := if_pos hf
    have heq : (Kind.dot dims a b : Kind T).eager get own = (get a).dotAt (get b)
        (dotDims dims (get a).shape (get b).shape).1 (dotDims dims (get a).shape (get b).shape).2 := by
      cases dims with
      | some d => rfl
      | none =>
        funext h
        simp only [Kind.eager, Mat.dot, dotDims]
        congr 1
        split <;> omega
    rw [heq]
    obtain ⟨h1, h2, h3⟩ := hf
    simp only at h1 h2 h3
    by_cases hv : (get a).shape.length = 1 ∧ (get b).shape.length = 1
    · rw [if_pos hv] at hdn
      obtain ⟨n, hn⟩ := List.length_eq_one_iff.1 hv.1
      obtain ⟨m, hm⟩ := List.length_eq_one_iff.1 hv.2
      have e1 : (dotDims dims (get a).shape (get b).shape).1 = 0 := by omega
      have e2 : (dotDims dims (get a).shape (get b).shape).2 = 0 := by omega
      rw [e1, e2] at h3 ⊢
      rw [hn, hm] at h3
      have hnm : n = m := by simpa using h3
      exact done hdn (by rw [hsum]) (C17_dotAt_vectors _ _ _ _ h ga gb hpos n hn (by rw [hnm]; exact hm))
    · rw [if_neg hv] at hdn
      exact done hdn (by rw [hsum]) (C17_dotAt _ _ _ _ h ga gb hpos _ _ h1 h2 h3 hv)
  | concat d a b =>
    have ga := good_holds (hk a (by simp [Kind.kids]))
    have gb := good_holds (hk b (by simp [Kind.kids]))
    obtain ⟨r, h1, h2, _⟩ := C15_concat_partial _ _ _ _ h ga gb d _ hf.1 hf.2
    exact ⟨r, h, _, by simp only [Kind.eager, h1, Out.ofRes_ok], if_pos hf, h2⟩
  | sub d st en g t =>
    have gt := good_holds (hk t (by simp [Kind.kids]))
    obtain ⟨h1, h2, h3⟩ := hf
    cases g with
    | true =>
      exact done (if_pos ⟨h1, h2, h3⟩) rfl (C14_foSubTensor_partial _ _ h gt hpos d st en zero h1 h2 ha)
    | false =>
      exact done (if_pos ⟨h1, h2, h3⟩) rfl (C13_subTensor _ _ h gt hpos d st en h1 h2 (by simpa using h3))
  | reshape t =>
    have gt := good_holds (hk t (by simp [Kind.kids]))
    exact done rfl rfl (C16_reshape_partial _ _ h gt hpos own (by rw [dataSize_eq, dataSize_eq]; exact ha))
  | transpose t => exact done rfl rfl (C12_transpose _ _ h (good_holds (hk t (by simp [Kind.kids]))) hpos)

theorem fits_frozen {s : Store T} {n : Nat} (hk : ∀ c ∈ (s.nodes n).kind.kids, frozen s c) (c : Nat)
    (hc : c ∈ (s.nodes n).kind.kids) : shp s c = (s.nodes c).mat.shape := by
  simp [shp, shapeOf, hk c hc]

/-- Take an operation (graph tensor `n`) on data tensors or tensors built earlier, whose shapes fit,
in a case where the two versions are meant to agree, over a type whose division never aborts and in
which `0 + x = x`.  The immediate method succeeds; building and executing the graph succeeds; both
results hold the same tensor. -/
theorem C27_graph_agrees_with_immediate (hd : ∀ x y : T, divPanics x y = false)
    (hz : ∀ x : T, GoNum.add zero x = x) (s : Store T) (n : Nat)
    (hb : (s.nodes n).built = false) (hE : Expr s n) (hpos : 0 < s.heap.next)
    (hfr : ∀ c ∈ (s.nodes n).kind.kids, frozen s c)
    (hf : (s.nodes n).kind.fits fun c => (s.nodes c).mat.shape)
    (ha : (s.nodes n).kind.agrees (s.nodes n).mat.shape fun c => (s.nodes c).mat.shape)
    (hr : (s.nodes n).kind.redOK fun c => (s.nodes c).mat.shape) :
    ∃ r h1 ops s' h2 t, (s.nodes n).kind.eager (fun c => (s.nodes c).mat) (s.nodes n).mat.shape s.heap = .ok r h1 ∧
      s.newGraph n = .ok ops s' ∧ exec ops s'.heap = .ok () h2 ∧
      Holds h1 r t ∧ Holds h2 (s'.nodes n).mat t ∧
      r.getData h1 = (s'.nodes n).mat.getData h2 := by
  have hnl : (s.nodes n).kind ≠ .leaf := fun h => by rw [h] at ha; exact ha
  have hnf : ¬ frozen s n := fun h => by
    rcases frozen_cases h with h | h
    · rw [hb] at h; cases h
    · exact hnl h
  have hgood : ∀ c ∈ (s.nodes n).kind.kids, GoodMat s.heap (s.nodes c).mat := fun c hc =>
    (hE c (.step hb hc (.refl c))).2.1 (hfr c hc)
  obtain ⟨r, h1, t, e1, e2, e3⟩ := eager_den hd hz hpos hgood (hE n (.refl n)).2.2.1 hf ha hr
  have hsh : ∀ c ∈ (s.nodes n).kind.kids, shp s c = (s.nodes c).mat.shape := fits_frozen hfr
  have hwell : WellShaped s n := by
    unfold WellShaped
    have hord := (hE n (.refl n)).1
    have hkc : ∀ c ∈ (s.nodes n).kind.kids, shapeOf s n c = some (s.nodes c).mat.shape := fun c hc => by
      have := hord c hc
      obtain ⟨k, rfl⟩ : ∃ k, n = k + 1 := ⟨n - 1, by omega⟩
      rw [shapeOf, if_pos (hfr c hc)]
    rw [shapeOf, if_neg hnf, if_pos]
    · rfl
    · refine ⟨List.all_eq_true.2 fun c hc => by rw [hkc c hc]; rfl, (fits_get fun c hc => ?_).1 hf⟩
      rw [hkc c hc]; rfl
  have hreach : ∀ m, Reach s n m → (s.nodes m).built = false → m = n ∨ (s.nodes m).kind = .leaf := by
    intro m hm hmb
    cases hm with
    | refl => exact Or.inl rfl
    | @step _ c _ _ hc hr2 =>
      right
      rcases frozen_cases (hfr c hc) with h | h
      · cases hr2 with
        | refl => rw [hmb] at h; cases h
        | step hb2 _ _ => rw [hb2] at h; cases h
      · cases hr2 with
        | refl => exact h
        | step _ hk2 _ => rw [h] at hk2; simp [Kind.kids] at hk2
  obtain ⟨ops, s', g1, g2⟩ := C21_build_and_exec hd s n hE hpos hwell
    (fun m hm hmb => by
      rcases hreach m hm hmb with rfl | hl
      · intro hst
        have hst' := (straddles_get hsh).1 hst
        revert hst' ha
        cases (s.nodes m).kind <;> try exact fun _ h => h
        rename_i d st en g t
        cases g with
        | false => exact fun _ h => absurd h.1 (by simp)
        | true =>
          intro ha hst
          obtain ⟨_, q1, q2, _⟩ := hst
          simp only [Kind.agrees] at ha q1 q2
          omega
      · rw [hl]; exact fun h => h)
    (fun m hm hmb => by
      rcases hreach m hm hmb with rfl | hl
      · exact redOK_get (fun c hc => hsh c hc) hr
      · rw [hl]; trivial)
  obtain ⟨h2, g3, g4⟩ := g2 s'.heap ⟨le_refl _, fun _ _ _ _ => rfl⟩
  obtain ⟨t', v1, _, v3⟩ := g4 n (.refl n)
  have hval : value s s'.heap.val (n + 1) n = some t := by
    obtain ⟨B, -⟩ := newGraph_ok hE hpos g1
    rw [value_congr (s := s) (fun q hq => B.ext.val q hq) _ _ hE]
    have hord := (hE n (.refl n)).1
    rw [← e2]
    rw [value, if_neg hnf]
    have hkv : ∀ c ∈ (s.nodes n).kind.kids, value s s.heap.val n c = some (ofMat s.heap.val (s.nodes c).mat) := by
      intro c hc
      have := hord c hc
      obtain ⟨k, rfl⟩ : ∃ k, n = k + 1 := ⟨n - 1, by omega⟩
      rw [value, if_pos (hfr c hc)]
    rw [if_pos (List.all_eq_true.2 fun c hc => by rw [hkv c hc]; rfl)]
    refine den_congr (fun c hc => ?_) (fun _ _ _ _ => rfl) (fun _ _ => rfl)
    rw [hkv c hc, Option.getD_some]
    exact tab_eq rfl (ofMat_flat (hgood c hc) _).symm
  rw [hval, Option.some.injEq] at v1
  subst v1
  exact ⟨r, h1, ops, s', h2, t, e1, g1, g3, e3, v3, by rw [holds_data e3, holds_data v3]⟩

/-- the sum of two tensors, both ways -/
example : ∃ r h1 ops s' h2, ((⟨[2], [1], [1, 2]⟩ : Mat).add ⟨[2], [1], [3, 4]⟩ (Demo.store Int).heap) = .ok r h1 ∧
    (Demo.store Int).newGraph 2 = .ok ops s' ∧ exec ops s'.heap = .ok () h2 ∧
    r.getData h1 = .ok [13, 24] ∧ (s'.nodes 2).mat.getData h2 = .ok [13, 24] :=
  ⟨_, _, _, _, _, rfl, rfl, rfl, rfl, rfl⟩

/-- the hypotheses are met for `Dot` of two vectors, for every element type with the two laws -/
example (hd : ∀ x y : T, divPanics x y = false) (hz : ∀ x : T, GoNum.add zero x = x) :
    ∃ r h1 ops s' h2, (⟨[2], [1], [1, 2]⟩ : Mat).dot ⟨[2], [1], [3, 4]⟩ (Demo.store T).heap = .ok r h1 ∧
      (Demo.store T).newGraph 5 = .ok ops s' ∧ exec ops s'.heap = .ok () h2 ∧
      r.getData h1 = (s'.nodes 5).mat.getData h2 := by
  obtain ⟨r, h1, ops, s', h2, t, e1, e2, e3, _, _, e4⟩ := C27_graph_agrees_with_immediate hd hz (Demo.store T) 5 rfl
    (Demo.store_expr 5) (Nat.succ_pos 4)
    (fun c hc => by
      simp only [Demo.store, Store.lazyNode, Kind.kids, List.mem_cons, List.not_mem_nil, or_false] at hc
      rcases hc with rfl | rfl <;> exact Or.inr trivial)
    ⟨Nat.one_pos, Nat.one_pos, rfl⟩ trivial (Or.inl (Nat.succ_ne_zero 1))
  exact ⟨r, h1, ops, s', h2, e1, e2, e3, e4⟩

end Godeep.Props
