import Verif.Lemmas.Build
/-
  From built graphs to values: execution computes `value`.
-/
set_option linter.unusedSectionVars false

namespace Godeep
open Spec GoNum

variable {T : Type} [GoNum T]

theorem tab_eq {t : STensor T} {m : Mat} {val : Ptr → T} (h1 : m.shape = t.shape)
    (h2 : m.ops.map val = t.flat) : t.tab = ofMat val m := by
  simp only [STensor.tab, ofMat, h1, h2]

theorem value_succ {s : Store T} {val : Ptr → T} {fuel n : Nat} {t : STensor T} (hf : ¬ frozen s n)
    (h : value s val (fuel + 1) n = some t) :
    (∀ c ∈ (s.nodes n).kind.kids, ∃ u, value s val fuel c = some u) ∧
      (s.nodes n).kind.den val (s.nodes n).mat.shape
        (fun c => ((value s val fuel c).getD ⟨[], fun _ => zero⟩).tab) = some t := by
  simp only [value] at h
  rw [if_neg hf] at h
  split at h
  · rename_i hk
    rw [List.all_eq_true] at hk
    exact ⟨fun c hc => Option.isSome_iff_exists.1 (hk c hc), h⟩
  · cases h

theorem frozen_leaf {s : Store T} {n : Nat} (h : (s.nodes n).kind = .leaf) : frozen s n := by
  unfold frozen; rw [h]; exact Or.inr trivial

theorem frozen_cases {s : Store T} {n : Nat} (h : frozen s n) :
    (s.nodes n).built = true ∨ (s.nodes n).kind = .leaf := by
  unfold frozen at h
  rcases h with h | h
  · exact Or.inl h
  · right
    cases hk : (s.nodes n).kind <;> rw [hk] at h <;> first | rfl | cases h

theorem not_frozen {s : Store T} {n : Nat} (h : ¬ frozen s n) :
    (s.nodes n).built = false ∧ (s.nodes n).kind ≠ .leaf := by
  constructor
  · by_contra hc; exact h (Or.inl (by simpa using hc))
  · intro hc; exact h (frozen_leaf hc)

/-- after execution every visited tensor holds its value -/
theorem built_value {R : Nat → Prop} {s s' : Store T} (B : Built R s s') {val : Ptr → T}
    (hsem : ∀ m, R m → (s.nodes m).built = false →
      Sem (s.nodes m).kind (fun c => (s'.nodes c).mat) (s'.nodes m).mat val) :
    ∀ (fuel m : Nat) (t : STensor T), R m → value s val fuel m = some t →
      (s'.nodes m).mat.shape = t.shape ∧ (s'.nodes m).mat.ops.map val = t.flat := by
  intro fuel
  induction fuel with
  | zero => intro m t _ h; cases h
  | succ fuel ih =>
    intro m t hm h
    by_cases hf : frozen s m
    · simp only [value] at h
      rw [if_pos hf, Option.some.injEq] at h
      have hmat : (s'.nodes m).mat = (s.nodes m).mat := by
        rcases frozen_cases hf with hb | hl
        · rw [B.keep m (Or.inl hb)]
        · exact B.leaf m hl
      have hg := (B.done m hm).2
      rw [hmat] at hg ⊢
      subst h
      exact ⟨rfl, (ofMat_flat hg val).symm⟩
    · obtain ⟨hb, _⟩ := not_frozen hf
      obtain ⟨hk, hd⟩ := value_succ hf h
      refine hsem m hm hb t ?_
      rw [← hd]
      refine den_congr (fun c hc => ?_) (fun _ _ _ _ => rfl) (fun u hu => ?_)
      · obtain ⟨u, hu⟩ := hk c hc
        obtain ⟨h1, h2⟩ := ih c u (B.closed m hm hb c hc) hu
        rw [hu, Option.getD_some, tab_eq h1 h2]
      · have := B.shape m hm hb
        rw [hu] at this
        exact this

/-- values only depend on the scalars that existed before the build -/
theorem value_congr {s : Store T} {val val' : Ptr → T} (hv : ∀ q, q < s.heap.next → val' q = val q) :
    ∀ (fuel n : Nat), Expr s n → value s val' fuel n = value s val fuel n := by
  intro fuel
  induction fuel with
  | zero => intro n _; rfl
  | succ fuel ih =>
    intro n hE
    obtain ⟨o1, o2, o3, o4⟩ := hE n (.refl n)
    simp only [value]
    by_cases hf : frozen s n
    · rw [if_pos hf, if_pos hf, ofMat_congr (o2 hf) hv]
    · rw [if_neg hf, if_neg hf]
      have hk : ∀ c ∈ (s.nodes n).kind.kids, value s val' fuel c = value s val fuel c := fun c hc =>
        ih c (expr_reach hE (.step (not_frozen hf).1 hc (.refl c)))
      have hall : ((s.nodes n).kind.kids.all fun c => (value s val' fuel c).isSome) =
          ((s.nodes n).kind.kids.all fun c => (value s val fuel c).isSome) := by
        rw [Bool.eq_iff_iff, List.all_eq_true, List.all_eq_true]
        exact forall₂_congr fun c hc => by rw [hk c hc]
      rw [hall]
      split
      · refine den_congr (fun c hc => by rw [hk c hc]) ?_ (fun _ _ => rfl)
        rintro o t p hkind
        rw [hkind] at o3
        exact hv p o3.2
      · rfl

/-- enough fuel is enough -/
theorem value_fuel {s : Store T} {val : Ptr → T} : ∀ (fuel fuel' n : Nat), Ordered s n → n < fuel →
    n < fuel' → value s val fuel n = value s val fuel' n := by
  intro fuel
  induction fuel with
  | zero => intro _ n _ h; omega
  | succ fuel ih =>
    intro fuel' n ho h1 h2
    cases fuel' with
    | zero => omega
    | succ fuel' =>
      simp only [value]
      by_cases hf : frozen s n
      · rw [if_pos hf, if_pos hf]
      · rw [if_neg hf, if_neg hf]
        have hk : ∀ c ∈ (s.nodes n).kind.kids, value s val fuel c = value s val fuel' c := by
          intro c hc
          have := ho n (.refl n) c hc
          exact ih fuel' c (fun m hm => ho m (.step (not_frozen hf).1 hc hm)) (by omega) (by omega)
        have hall : ((s.nodes n).kind.kids.all fun c => (value s val fuel c).isSome) =
            ((s.nodes n).kind.kids.all fun c => (value s val fuel' c).isSome) := by
          rw [Bool.eq_iff_iff, List.all_eq_true, List.all_eq_true]
          exact forall₂_congr fun c hc => by rw [hk c hc]
        rw [hall]
        split
        · exact den_congr (fun c hc => by rw [hk c hc]) (fun _ _ _ _ => rfl) (fun _ _ => rfl)
        · rfl

/-! ### shapes -/

theorem shapeOf_succ {s : Store T} {fuel n : Nat} {sh : List Nat} (hf : ¬ frozen s n)
    (h : shapeOf s (fuel + 1) n = some sh) :
    (∀ c ∈ (s.nodes n).kind.kids, ∃ u, shapeOf s fuel c = some u) ∧
      (s.nodes n).kind.fits (fun c => (shapeOf s fuel c).getD []) ∧
      sh = (s.nodes n).kind.outShape (s.nodes n).mat.shape fun c => (shapeOf s fuel c).getD [] := by
  simp only [shapeOf] at h
  rw [if_neg hf] at h
  split at h
  · rename_i hk
    rw [List.all_eq_true] at hk
    rw [Option.some.injEq] at h
    exact ⟨fun c hc => Option.isSome_iff_exists.1 (hk.1 c hc), hk.2, h.symm⟩
  · cases h

theorem built_mat {R : Nat → Prop} {s s' : Store T} (B : Built R s s') {m : Nat} (hf : frozen s m) :
    (s'.nodes m).mat = (s.nodes m).mat := by
  rcases frozen_cases hf with hb | hl
  · rw [B.keep m (Or.inl hb)]
  · exact B.leaf m hl

/-- built tensors have the predicted shapes -/
theorem built_shape {R : Nat → Prop} {s s' : Store T} (B : Built R s s') :
    ∀ (fuel m : Nat) (sh : List Nat), R m → shapeOf s fuel m = some sh → (s'.nodes m).mat.shape = sh := by
  intro fuel
  induction fuel with
  | zero => intro m t _ h; cases h
  | succ fuel ih =>
    intro m sh hm h
    by_cases hf : frozen s m
    · simp only [shapeOf] at h
      rw [if_pos hf, Option.some.injEq] at h
      rw [built_mat B hf, h]
    · obtain ⟨hb, _⟩ := not_frozen hf
      obtain ⟨hk, _, hd⟩ := shapeOf_succ hf h
      rw [B.shape m hm hb, hd]
      refine outShape_get fun c hc => ?_
      obtain ⟨u, hu⟩ := hk c hc
      rw [ih c u (B.closed m hm hb c hc) hu, hu, Option.getD_some]

/-- building something else first does not change the predicted shape -/
theorem shapeOf_after {R : Nat → Prop} {s s1 : Store T} (B : Built R s s1) :
    ∀ (fuel m : Nat) (sh : List Nat), shapeOf s fuel m = some sh → shapeOf s1 fuel m = some sh := by
  intro fuel
  induction fuel with
  | zero => intro m t h; cases h
  | succ fuel ih =>
    intro m sh h
    by_cases hf : frozen s m
    · have hf1 : frozen s1 m := by
        rcases frozen_cases hf with hb | hl
        · left; rw [B.keep m (Or.inl hb)]; exact hb
        · exact frozen_leaf (by rw [B.kind]; exact hl)
      simp only [shapeOf] at h ⊢
      rw [if_pos hf] at h
      rw [if_pos hf1, built_mat B hf, h]
    · by_cases hR : R m
      · have := built_shape B (fuel + 1) m sh hR h
        simp only [shapeOf]
        rw [if_pos (show frozen s1 m from Or.inl (B.done m hR).1), this]
      · have hkeep := B.keep m (Or.inr hR)
        have hf1 : ¬ frozen s1 m := by unfold frozen at hf ⊢; rwa [hkeep]
        obtain ⟨hk, hfit, hd⟩ := shapeOf_succ hf h
        have hc : ∀ c ∈ (s.nodes m).kind.kids, shapeOf s1 fuel c = shapeOf s fuel c := by
          intro c hc
          obtain ⟨u, hu⟩ := hk c hc
          rw [hu, ih c u hu]
        simp only [shapeOf]
        rw [if_neg hf1, hkeep, if_pos, hd]
        · rw [outShape_get fun c h => by rw [hc c h]]
        · refine ⟨?_, (fits_get fun c h => by rw [hc c h]).2 hfit⟩
          rw [List.all_eq_true]
          intro c h
          obtain ⟨u, hu⟩ := hk c h
          rw [hc c h, hu]; rfl

theorem shapeOf_fuel {s : Store T} : ∀ (fuel fuel' n : Nat), Ordered s n → n < fuel →
    n < fuel' → shapeOf s fuel n = shapeOf s fuel' n := by
  intro fuel
  induction fuel with
  | zero => intro _ n _ h; omega
  | succ fuel ih =>
    intro fuel' n ho h1 h2
    cases fuel' with
    | zero => omega
    | succ fuel' =>
      simp only [shapeOf]
      by_cases hf : frozen s n
      · rw [if_pos hf, if_pos hf]
      · rw [if_neg hf, if_neg hf]
        have hk : ∀ c ∈ (s.nodes n).kind.kids, shapeOf s fuel c = shapeOf s fuel' c := by
          intro c hc
          have := ho n (.refl n) c hc
          exact ih fuel' c (fun m hm => ho m (.step (not_frozen hf).1 hc hm)) (by omega) (by omega)
        have hall : ((s.nodes n).kind.kids.all fun c => (shapeOf s fuel c).isSome) =
            ((s.nodes n).kind.kids.all fun c => (shapeOf s fuel' c).isSome) := by
          rw [Bool.eq_iff_iff, List.all_eq_true, List.all_eq_true]
          exact forall₂_congr fun c hc => by rw [hk c hc]
        rw [hall, outShape_get (get' := fun c => (shapeOf s fuel c).getD [])
          (get := fun c => (shapeOf s fuel' c).getD []) (fun c hc => by rw [hk c hc])]
        exact if_congr (and_congr Iff.rfl (fits_get (get' := fun c => (shapeOf s fuel c).getD [])
          (get := fun c => (shapeOf s fuel' c).getD []) (fun c hc => by rw [hk c hc]))) rfl rfl

theorem shapeOf_reach {s : Store T} {n m : Nat} (hr : Reach s n m) : ∀ {fuel : Nat}, Ordered s n →
    (shapeOf s fuel n).isSome → n < fuel → (shapeOf s (m + 1) m).isSome := by
  induction hr with
  | refl n => intro fuel ho h hn; rwa [shapeOf_fuel (n + 1) fuel n ho (by omega) hn]
  | @step n c m hb hk hr ih =>
    intro fuel ho h hn
    cases fuel with
    | zero => cases h
    | succ fuel =>
      obtain ⟨sh, hsh⟩ := Option.isSome_iff_exists.1 h
      have hf : ¬ frozen s n := by
        intro hf
        rcases frozen_cases hf with h | h
        · rw [hb] at h; cases h
        · rw [h] at hk; simp [Kind.kids] at hk
      obtain ⟨h1, _, _⟩ := shapeOf_succ hf hsh
      obtain ⟨u, hu⟩ := h1 c hk
      have := ho n (.refl n) c hk
      exact ih (fun m hm => ho m (.step hb hk hm)) (by rw [hu]; rfl) (by omega)

/-- predicted shapes and a build that goes through -/
structure Shaped (s : Store T) (sh : Nat → List Nat) (n : Nat) : Prop where
  at_ : ∀ m, Reach s n m → shapeOf s (m + 1) m = some (sh m)
  no : ∀ m, Reach s n m → (s.nodes m).built = false → ¬ (s.nodes m).kind.straddles sh

theorem shaped_reach {s : Store T} {sh : Nat → List Nat} {n m : Nat} (h : Shaped s sh n)
    (hr : Reach s n m) : Shaped s sh m :=
  ⟨fun x hx => h.at_ x (reach_trans hr hx), fun x hx => h.no x (reach_trans hr hx)⟩

theorem shaped_after {R : Nat → Prop} {s s1 : Store T} (B : Built R s s1) {sh : Nat → List Nat} {n : Nat}
    (h : Shaped s sh n) : Shaped s1 sh n := by
  refine ⟨fun m hm => shapeOf_after B _ _ _ (h.at_ m (reach_after B hm)), fun m hm hb => ?_⟩
  rw [B.kind]
  refine h.no m (reach_after B hm) ?_
  by_contra hc
  rw [B.keep m (Or.inl (by simpa using hc))] at hb
  exact hc hb

/-- a well-shaped node's operation fits -/
theorem shaped_fits {s : Store T} {sh : Nat → List Nat} {n : Nat} (h : Shaped s sh n) (ho : Ordered s n)
    (hf : ¬ frozen s n) : (s.nodes n).kind.fits sh := by
  obtain ⟨hk, hfit, _⟩ := shapeOf_succ hf (h.at_ n (.refl n))
  refine (fits_get fun c hc => ?_).1 hfit
  have hlt := ho n (.refl n) c hc
  have hb := (not_frozen hf).1
  rw [shapeOf_fuel n (c + 1) c (fun m hm => ho m (.step hb hc hm)) hlt (by omega),
    h.at_ c (.step hb hc (.refl c))]
  rfl

theorem each_total {f : Nat → Store T → Out (Store T) Unit}
    (hf : ∀ c s s', Expr s c → 0 < s.heap.next → f c s = .ok () s' → Built (Reach s c) s s')
    {sh : Nat → List Nat} {b : Nat}
    (ht : ∀ c s, c < b → Expr s c → 0 < s.heap.next → Shaped s sh c → ∃ s', f c s = .ok () s') :
    ∀ (cs : List Nat) (s : Store T), (∀ c ∈ cs, c < b ∧ Expr s c ∧ Shaped s sh c) → 0 < s.heap.next →
      ∃ s', Store.each f cs s = .ok () s' := by
  intro cs
  induction cs with
  | nil => intro s _ _; exact ⟨s, rfl⟩
  | cons c cs ih =>
    intro s hE hpos
    obtain ⟨c1, c2, c3⟩ := hE c (by simp)
    obtain ⟨s1, h1⟩ := ht c s c1 c2 hpos c3
    have B := hf c s s1 c2 hpos h1
    obtain ⟨s2, h2⟩ := ih s1 (fun c' hc' => by
      obtain ⟨d1, d2, d3⟩ := hE c' (by simp [hc'])
      exact ⟨d1, expr_after B d2, shaped_after B d3⟩) (lt_of_lt_of_le hpos B.ext.next)
    exact ⟨s2, by simp only [Store.each, h1, Out.bind_ok, h2]⟩

/-- marking a tensor as built changes nothing for the tensors it refers to -/
theorem expr_mark {s : Store T} {n : Nat} {x : Node T} {c : Nat} (hc : c < n) (hE : Expr s c) :
    Expr (s.setNode n x) c ∧ ∀ m, Reach (s.setNode n x) c m ↔ Reach s c m := by
  have h0 : ∀ y, y ≠ n → (s.setNode n x).nodes y = s.nodes y := fun y hy => by simp [Store.setNode, hy]
  have key : ∀ {a m}, a ≤ c → Ordered s a → Reach (s.setNode n x) a m → Reach s a m := by
    intro a m hac ha hr
    induction hr with
    | refl _ => exact .refl _
    | @step a c' m hb2 hk2 _ ih2 =>
      rw [h0 a (by omega)] at hb2 hk2
      have hl := ha a (.refl a) _ hk2
      exact .step hb2 hk2 (ih2 (by omega) (fun y hy => ha y (.step hb2 hk2 hy)))
  have hord := expr_ordered hE
  have hiff : ∀ m, Reach (s.setNode n x) c m ↔ Reach s c m := fun m =>
    ⟨key (le_refl c) hord, reach_congr hord fun y hy => by rw [h0 y (by omega)]; exact ⟨rfl, rfl⟩⟩
  refine ⟨fun m hm => ?_, hiff⟩
  have hm' := (hiff m).1 hm
  have hle := reach_le hord hm'
  have hx := h0 m (by omega)
  unfold frozen
  rw [hx]
  exact hE m hm'

theorem shapeOf_mark {s : Store T} {n : Nat} {x : Node T} : ∀ (fuel m : Nat), m < n → Ordered s m →
    shapeOf (s.setNode n x) fuel m = shapeOf s fuel m := by
  have h0 : ∀ y, y ≠ n → (s.setNode n x).nodes y = s.nodes y := fun y hy => by simp [Store.setNode, hy]
  intro fuel
  induction fuel with
  | zero => intro m _ _; rfl
  | succ fuel ih =>
    intro m hm ho
    have hx := h0 m (by omega)
    have hfr : frozen (s.setNode n x) m ↔ frozen s m := by unfold frozen; rw [hx]
    simp only [shapeOf]
    by_cases hf : frozen s m
    · rw [if_pos hf, if_pos (hfr.2 hf), hx]
    · rw [if_neg hf, if_neg (fun h => hf (hfr.1 h)), hx]
      have hk : ∀ c ∈ (s.nodes m).kind.kids, shapeOf (s.setNode n x) fuel c = shapeOf s fuel c := by
        intro c hc
        have := ho m (.refl m) c hc
        exact ih c (by omega) (fun y hy => ho y (.step (not_frozen hf).1 hc hy))
      have hall : ((s.nodes m).kind.kids.all fun c => (shapeOf (s.setNode n x) fuel c).isSome) =
          ((s.nodes m).kind.kids.all fun c => (shapeOf s fuel c).isSome) := by
        rw [Bool.eq_iff_iff, List.all_eq_true, List.all_eq_true]
        exact forall₂_congr fun c hc => by rw [hk c hc]
      rw [hall, outShape_get (get' := fun c => (shapeOf (s.setNode n x) fuel c).getD [])
        (get := fun c => (shapeOf s fuel c).getD []) (fun c hc => by rw [hk c hc])]
      exact if_congr (and_congr Iff.rfl (fits_get (get' := fun c => (shapeOf (s.setNode n x) fuel c).getD [])
        (get := fun c => (shapeOf s fuel c).getD []) (fun c hc => by rw [hk c hc]))) rfl rfl

theorem shaped_mark {s : Store T} {n : Nat} {x : Node T} {c : Nat} {sh : Nat → List Nat} (hc : c < n)
    (hE : Expr s c) (h : Shaped s sh c) : Shaped (s.setNode n x) sh c := by
  obtain ⟨_, hiff⟩ := expr_mark (x := x) hc hE
  have hle : ∀ m, Reach s c m → m < n := fun m hm => by
    have := reach_le (expr_ordered hE) hm; omega
  refine ⟨fun m hm => ?_, fun m hm hb => ?_⟩
  · have hm' := (hiff m).1 hm
    rw [shapeOf_mark _ m (hle m hm') (expr_ordered (expr_reach hE hm'))]
    exact h.at_ m hm'
  · have hm' := (hiff m).1 hm
    have hx : (s.setNode n x).nodes m = s.nodes m := by
      have := hle m hm'
      simp only [Store.setNode]
      rw [if_neg (by omega)]
    rw [hx] at hb ⊢
    exact h.no m hm' hb

/-- building a well-shaped expression succeeds -/
theorem build_total {sh : Nat → List Nat} : ∀ (fuel n : Nat) (s : Store T), n < fuel → Expr s n →
    0 < s.heap.next → Shaped s sh n → ∃ s', Store.build fuel n s = .ok () s' := by
  intro fuel
  induction fuel with
  | zero => intro n s h; omega
  | succ fuel ih =>
    intro n s hn hE hpos hsh
    simp only [Store.build]
    by_cases hb : (s.nodes n).built = true
    · rw [if_pos hb]; exact ⟨s, rfl⟩
    rw [if_neg hb]
    have hb' : (s.nodes n).built = false := by simpa using hb
    obtain ⟨o1, o2, o3, o4⟩ := hE n (.refl n)
    set s0 := s.setNode n { s.nodes n with built := true } with hs0
    have hkE : ∀ c ∈ (s.nodes n).kind.kids, c < n ∧ Expr s c ∧ Shaped s sh c := fun c hc =>
      ⟨o1 c hc, expr_reach hE (.step hb' hc (.refl c)), shaped_reach hsh (.step hb' hc (.refl c))⟩
    have hk0 : ∀ c ∈ (s.nodes n).kind.kids, c < n ∧ Expr s0 c ∧ Shaped s0 sh c := fun c hc => by
      obtain ⟨k1, k2, k3⟩ := hkE c hc
      exact ⟨k1, (expr_mark k1 k2).1, shaped_mark k1 k2 k3⟩
    obtain ⟨s1, h1⟩ := each_total (sh := sh) (b := n) (f := fun c s => Store.build fuel c s)
      (fun c s s' => build_ok fuel c s s') (fun c s hc hE hp hs => ih c s (by omega) hE hp hs)
      (s.nodes n).kind.kids s0 hk0 hpos
    have B := each_ok (fun c s s' => build_ok fuel c s s') (s.nodes n).kind.kids s0 s1
      (fun c hc => (hk0 c hc).2.1) hpos h1
    rw [h1, Out.bind_ok]
    have hnR : ¬ ∃ c ∈ (s.nodes n).kind.kids, Reach s0 c n := by
      rintro ⟨c, hc, hr⟩
      obtain ⟨k1, k2, _⟩ := hk0 c hc
      have := reach_le (expr_ordered k2) hr
      omega
    have hn1 : s1.nodes n = { s.nodes n with built := true } := by
      rw [B.keep n (Or.inr hnR), hs0]; simp [Store.setNode]
    have hkid : ∀ c ∈ (s.nodes n).kind.kids,
        GoodMat s1.heap (s1.nodes c).mat ∧ (s1.nodes c).mat.shape = sh c := fun c hc =>
      ⟨(B.done c ⟨c, hc, .refl c⟩).2, built_shape B (c + 1) c (sh c) ⟨c, hc, .refl c⟩
        ((hk0 c hc).2.2.at_ c (.refl c))⟩
    have hfit : (s.nodes n).kind.fits fun c => (s1.nodes c).mat.shape := by
      by_cases hl : (s.nodes n).kind = .leaf
      · rw [hl]; trivial
      · refine (fits_get fun c hc => (hkid c hc).2).2 (shaped_fits hsh (expr_ordered hE) ?_)
        intro hf
        rcases frozen_cases hf with h | h
        · exact hb h
        · exact hl h
    have hns : ¬ (s.nodes n).kind.straddles fun c => (s1.nodes c).mat.shape := fun h =>
      hsh.no n (.refl n) hb' ((straddles_get fun c hc => (hkid c hc).2).1 h)
    obtain ⟨f, hf⟩ := run_of_fits (get := fun m => (s1.nodes m).mat)
      (s := ⟨s1.heap, s1.ctx, (s.nodes n).mat⟩) (k := (s.nodes n).kind)
      (lt_of_lt_of_le hpos B.ext.next) (fun c hc => (hkid c hc).1) (scalarOK_mono o3 B.ext.next)
      (fun hl => (o2 (frozen_leaf hl)).mono B.ext.next) o4 hfit hns
    simp only [Store.finish, hn1, hf]
    exact ⟨_, rfl⟩

/-! ### aborts -/

/-- building aborts only on an operation naming a dimension its operands do not have -/
theorem build_panic : ∀ (fuel n : Nat) (s : Store T), n < fuel → Expr s n → 0 < s.heap.next →
    Store.build fuel n s = .panic →
    ∃ (m : Nat) (sh : Nat → List Nat), Reach s n m ∧ (s.nodes m).built = false ∧
      (s.nodes m).kind.badDim sh ∧
      ∀ c ∈ (s.nodes m).kind.kids, ∀ f u, shapeOf s f c = some u → sh c = u := by
  intro fuel
  induction fuel with
  | zero => intro n s h; omega
  | succ fuel ih =>
    intro n s hn hE hpos h
    simp only [Store.build] at h
    by_cases hb : (s.nodes n).built = true
    · rw [if_pos hb] at h; cases h
    rw [if_neg hb] at h
    have hb' : (s.nodes n).built = false := by simpa using hb
    obtain ⟨o1, o2, o3, o4⟩ := hE n (.refl n)
    set s0 := s.setNode n { s.nodes n with built := true } with hs0
    have h0 : ∀ y, y ≠ n → s0.nodes y = s.nodes y := fun y hy => by simp [hs0, Store.setNode, hy]
    have hkE : ∀ c ∈ (s.nodes n).kind.kids, c < n ∧ Expr s c := fun c hc =>
      ⟨o1 c hc, expr_reach hE (.step hb' hc (.refl c))⟩
    have hk0 : ∀ c ∈ (s.nodes n).kind.kids, c < n ∧ Expr s0 c ∧ ∀ m, Reach s0 c m ↔ Reach s c m := fun c hc =>
      ⟨(hkE c hc).1, expr_mark (hkE c hc).1 (hkE c hc).2⟩
    cases he : Store.each (fun c s => Store.build fuel c s) (s.nodes n).kind.kids s0 with
    | err e s1 => rw [he] at h; cases h
    | ok u s1 =>
      rw [he, Out.bind_ok] at h
      have B := each_ok (fun c s s' => build_ok fuel c s s') (s.nodes n).kind.kids s0 s1
        (fun c hc => (hk0 c hc).2.1) hpos he
      have hnR : ¬ ∃ c ∈ (s.nodes n).kind.kids, Reach s0 c n := by
        rintro ⟨c, hc, hr⟩
        obtain ⟨k1, k2, _⟩ := hk0 c hc
        have := reach_le (expr_ordered k2) hr
        omega
      have hn1 : s1.nodes n = { s.nodes n with built := true } := by
        rw [B.keep n (Or.inr hnR), hs0]; simp [Store.setNode]
      simp only [Store.finish, hn1] at h
      cases hf : Fin.run (fun m => (s1.nodes m).mat) (s.nodes n).kind
          ⟨s1.heap, s1.ctx, (s.nodes n).mat⟩ with
      | ok u' f => rw [hf] at h; cases h
      | err e f => rw [hf] at h; cases h
      | panic =>
        have hbad := run_panic (get := fun m => (s1.nodes m).mat)
          (s := ⟨s1.heap, s1.ctx, (s.nodes n).mat⟩) (k := (s.nodes n).kind)
          (lt_of_lt_of_le hpos B.ext.next) (fun c hc => (B.done c ⟨c, hc, .refl c⟩).2)
          (scalarOK_mono o3 B.ext.next)
          (fun hl => (o2 (frozen_leaf hl)).mono B.ext.next) o4 hf
        refine ⟨n, _, .refl n, hb', hbad, fun c hc f u hu => ?_⟩
        refine built_shape B f c u ⟨c, hc, .refl c⟩ ?_
        rw [shapeOf_mark f c (hkE c hc).1 (expr_ordered (hkE c hc).2)]
        exact hu
    | panic =>
      -- some kid's build aborted, after other kids were built
      have key : ∀ (cs : List Nat) (s2 : Store T), (∀ c ∈ cs, c < n ∧ Expr s2 c) → 0 < s2.heap.next →
          Store.each (fun c s => Store.build fuel c s) cs s2 = .panic →
          ∃ c ∈ cs, ∃ (m : Nat) (sh : Nat → List Nat), Reach s2 c m ∧ (s2.nodes m).built = false ∧
            (s2.nodes m).kind.badDim sh ∧
            ∀ c ∈ (s2.nodes m).kind.kids, ∀ f u, shapeOf s2 f c = some u → sh c = u := by
        intro cs
        induction cs with
        | nil => intro s2 _ _ h; cases h
        | cons c cs ihc =>
          intro s2 hc2 hp h
          simp only [Store.each] at h
          obtain ⟨k1, k2⟩ := hc2 c (by simp)
          cases hb2 : Store.build fuel c s2 with
          | panic =>
            obtain ⟨m, sh, r⟩ := ih c s2 (by omega) k2 hp hb2
            exact ⟨c, by simp, m, sh, r⟩
          | err e s3 => rw [hb2] at h; cases h
          | ok u s3 =>
            rw [hb2, Out.bind_ok] at h
            have B := build_ok fuel c s2 s3 k2 hp hb2
            obtain ⟨c', hc', m, sh, q1, q2, q3, q4⟩ := ihc s3 (fun c' hc' => by
              obtain ⟨d1, d2⟩ := hc2 c' (by simp [hc'])
              exact ⟨d1, expr_after B d2⟩) (lt_of_lt_of_le hp B.ext.next) h
            rw [B.kind] at q3 q4
            refine ⟨c', by simp [hc'], m, sh, reach_after B q1, ?_, q3, fun x hx f u hu => ?_⟩
            · by_contra hc
              rw [B.keep m (Or.inl (by simpa using hc))] at q2
              exact hc q2
            · exact q4 x hx f u (shapeOf_after B f x u hu)
      obtain ⟨c, hc, m, sh, q1, q2, q3, q4⟩ := key (s.nodes n).kind.kids s0
        (fun c hc => ⟨(hk0 c hc).1, (hk0 c hc).2.1⟩) hpos he
      have hm' := ((hk0 c hc).2.2 m).1 q1
      have hle := reach_le (expr_ordered (hkE c hc).2) hm'
      have hlt := (hkE c hc).1
      have hmn : m < n := by omega
      rw [h0 m (by omega)] at q2 q3 q4
      refine ⟨m, sh, .step hb' hc hm', q2, q3, fun x hx f u hu => ?_⟩
      refine q4 x hx f u ?_
      have hordm := expr_ordered (expr_reach (hkE c hc).2 hm')
      have hxm := hordm m (.refl m) x hx
      rw [shapeOf_mark f x (by omega) (fun y hy => hordm y (.step q2 hx hy))]
      exact hu

end Godeep
