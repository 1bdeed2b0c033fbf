import Verif.Lemmas.Shape
/-
  `BuildGraph` of a whole expression.
-/
set_option linter.unusedSectionVars false

namespace Godeep
open Spec GoNum

variable {T : Type} [GoNum T]

theorem den_congr {k : Kind T} {val val' : Ptr → T} {sh sh' : List Nat} {env env' : Nat → STensor T}
    (he : ∀ c ∈ k.kids, env c = env' c) (hp : ∀ o t p, k = .opScalar o t p → val p = val' p)
    (hs : ∀ t, k = .reshape t → sh = sh') : k.den val sh env = k.den val' sh' env' := by
  cases k with
  | leaf => rfl
  | op2 o a b => simp only [Kind.den, he a (by simp [Kind.kids]), he b (by simp [Kind.kids])]
  | opScalar o t p => simp only [Kind.den, he t (by simp [Kind.kids]), hp o t p rfl]
  | neg t => simp only [Kind.den, he t (by simp [Kind.kids])]
  | abs t => simp only [Kind.den, he t (by simp [Kind.kids])]
  | act f t => simp only [Kind.den, he t (by simp [Kind.kids])]
  | softMax t => simp only [Kind.den, he t (by simp [Kind.kids])]
  | math r t => simp only [Kind.den, he t (by simp [Kind.kids])]
  | dimMath r d t => simp only [Kind.den, he t (by simp [Kind.kids])]
  | dot dims a b => simp only [Kind.den, he a (by simp [Kind.kids]), he b (by simp [Kind.kids])]
  | concat d a b => simp only [Kind.den, he a (by simp [Kind.kids]), he b (by simp [Kind.kids])]
  | sub d st en g t => simp only [Kind.den, he t (by simp [Kind.kids])]
  | reshape t => simp only [Kind.den, he t (by simp [Kind.kids]), hs t rfl]
  | transpose t => simp only [Kind.den, he t (by simp [Kind.kids])]
  | fill t v => rfl
  | copy f t => rfl

theorem ofMat_congr {h : Heap T} {m : Mat} (G : GoodMat h m) {val val' : Ptr → T}
    (hv : ∀ q, q < h.next → val' q = val q) : ofMat val' m = ofMat val m := by
  unfold ofMat
  rw [List.map_congr_left (fun p hp => hv p (G.valid p hp).2)]

theorem sem_congr {k : Kind T} {get : Nat → Mat} {mat : Mat} {h : Heap T} (hm : GoodMat h mat)
    (hk : ∀ c ∈ k.kids, GoodMat h (get c)) (hs : ScalarOK h k) {val val' : Ptr → T}
    (hv : ∀ q, q < h.next → val' q = val q) (hsem : Sem k get mat val) : Sem k get mat val' := by
  intro t ht
  rw [List.map_congr_left (fun p hp => hv p (hm.valid p hp).2)]
  refine hsem t ?_
  rw [← ht]
  refine den_congr (fun c hc => (ofMat_congr (hk c hc) hv).symm) ?_ (fun _ _ => rfl)
  rintro o t p rfl
  exact (hv p hs.2).symm

theorem sem_get {k : Kind T} {get get' : Nat → Mat} {mat : Mat} {val : Ptr → T}
    (hk : ∀ c ∈ k.kids, get' c = get c) (hsem : Sem k get mat val) : Sem k get' mat val := by
  intro t ht
  refine hsem t ?_
  rw [← ht]
  exact den_congr (fun c hc => by rw [hk c hc]) (fun _ _ _ _ => rfl) (fun _ _ => rfl)

theorem outShape_get {k : Kind T} {get get' : Nat → List Nat} {own : List Nat}
    (hk : ∀ c ∈ k.kids, get' c = get c) : k.outShape own get' = k.outShape own get := by
  cases k <;> simp only [Kind.outShape] <;> simp_all [Kind.kids]

theorem fits_get {k : Kind T} {get get' : Nat → List Nat}
    (hk : ∀ c ∈ k.kids, get' c = get c) : k.fits get' ↔ k.fits get := by
  cases k <;> simp only [Kind.fits] <;> simp_all [Kind.kids]

theorem straddles_get {k : Kind T} {get get' : Nat → List Nat}
    (hk : ∀ c ∈ k.kids, get' c = get c) : k.straddles get' ↔ k.straddles get := by
  cases k <;> simp only [Kind.straddles] <;> simp_all [Kind.kids]

theorem badDim_get {k : Kind T} {get get' : Nat → List Nat}
    (hk : ∀ c ∈ k.kids, get' c = get c) : k.badDim get' ↔ k.badDim get := by
  cases k with
  | dot dims a b =>
    cases dims with
    | none => rfl
    | some d => obtain ⟨da, db⟩ := d; simp only [Kind.badDim]; simp_all [Kind.kids]
  | concat d a b => simp only [Kind.badDim]; simp_all [Kind.kids]
  | _ => rfl

theorem passes_get {k : Kind T} {get get' : Nat → List Nat}
    (hk : ∀ c ∈ k.kids, get' c = get c) : k.passes get' ↔ k.passes get := by
  cases k with
  | concat d a b => simp only [Kind.passes]; simp_all [Kind.kids]
  | _ => simp only [Kind.passes, fits_get hk, straddles_get hk]

theorem redOK_get {k : Kind T} {get get' : Nat → List Nat}
    (hk : ∀ c ∈ k.kids, get' c = get c) (h : k.redOK get) : k.redOK get' := by
  cases k <;> simp only [Kind.redOK] at h ⊢ <;> simp_all [Kind.kids]

theorem block_append {lo mid hi : Nat} {o1 o2 : List (Op T)} {P1 P2 : (Ptr → T) → Prop} {n1 n2 : Prop}
    (hlm : lo ≤ mid) (hmh : mid ≤ hi) (B1 : Block lo mid o1 P1 n1) (B2 : Block mid hi o2 P2 n2)
    (hst : ∀ val val', (∀ q, q < mid → val' q = val q) → P1 val → P1 val') :
    Block lo hi (o1 ++ o2) (fun v => P1 v ∧ P2 v) (n1 ∧ n2) := by
  refine ⟨?_, ?_, ?_, ?_, ?_⟩
  · intro q hq
    rw [dsts_append, List.mem_append] at hq
    rcases hq with hq | hq
    · have := B1.dst q hq; omega
    · have := B2.dst q hq; omega
  · intro o ho q hq
    rcases List.mem_append.1 ho with ho | ho
    · have := B1.reads o ho q hq; omega
    · exact B2.reads o ho q hq
  · intro hn o ho
    rcases List.mem_append.1 ho with ho | ho
    · exact B1.args hn.1 o ho
    · exact B2.args hn.2 o ho
  · intro hn
    by_cases hn1 : n1
    · obtain ⟨o, ho, h⟩ := B2.empty (fun hn2 => hn ⟨hn1, hn2⟩)
      exact ⟨o, List.mem_append_right _ ho, h⟩
    · obtain ⟨o, ho, h⟩ := B1.empty hn1
      exact ⟨o, List.mem_append_left _ ho, h⟩
  · intro h h' hz he
    obtain ⟨h1, e1, e2⟩ := exec_append_ok.1 he
    have hd : ∀ q, q ∉ dsts (o1 ++ o2) ↔ q ∉ dsts o1 ∧ q ∉ dsts o2 := by
      intro q; rw [dsts_append, List.mem_append, not_or]
    refine ⟨hst h1.val h'.val (fun q hq => ?_) (B1.run h h1 (fun q q1 q2 q3 => ?_) e1),
      B2.run h1 h' (fun q q1 q2 q3 => ?_) e2⟩
    · exact (exec_frame e2).2 q (fun hm => by have := B2.dst q hm; omega)
    · exact hz q q1 (by omega) ((hd q).2 ⟨q3, fun hm => by have := B2.dst q hm; omega⟩)
    · have hq1 : q ∉ dsts o1 := fun hm => by have := B1.dst q hm; omega
      rw [(exec_frame e1).2 q hq1]
      exact hz q (by omega) q2 ((hd q).2 ⟨hq1, q3⟩)

theorem block_weaken {lo hi : Nat} {ops : List (Op T)} {P Q : (Ptr → T) → Prop} {n m : Prop}
    (B : Block lo hi ops P n) (hPQ : ∀ v, P v → Q v) (hmn : m ↔ n) : Block lo hi ops Q m :=
  ⟨B.dst, B.reads, fun hm => B.args (hmn.1 hm), fun hm => B.empty (fun h => hm (hmn.2 h)), fun h h' hz he => hPQ _ (B.run h h' hz he)⟩

/-- a `BuildGraph` body looks only at the tensors it refers to -/
theorem run_get {get get' : Nat → Mat} {k : Kind T} (h : ∀ c ∈ k.kids, get c = get' c) :
    Fin.run get k = Fin.run get' k := by
  cases k <;> simp only [Kind.kids, List.mem_cons, List.not_mem_nil, or_false, forall_eq_or_imp,
    forall_eq] at h <;> simp only [Fin.run] <;> simp only [h]

/-- what a `BuildGraph` call does to the store; `R` is the set of tensors it visits -/
structure Built (R : Nat → Prop) (s s' : Store T) : Prop where
  ext : Extends s.heap s'.heap
  zero : ∀ q, s.heap.next ≤ q → q < s'.heap.next → s'.heap.val q = GoNum.zero
  kind : ∀ m, (s'.nodes m).kind = (s.nodes m).kind
  keep : ∀ m, (s.nodes m).built = true ∨ ¬ R m → s'.nodes m = s.nodes m
  done : ∀ m, R m → (s'.nodes m).built = true ∧ GoodMat s'.heap (s'.nodes m).mat
  leaf : ∀ m, (s.nodes m).kind = .leaf → (s'.nodes m).mat = (s.nodes m).mat
  shape : ∀ m, R m → (s.nodes m).built = false → (s'.nodes m).mat.shape =
    (s.nodes m).kind.outShape (s.nodes m).mat.shape fun c => (s'.nodes c).mat.shape
  passes : ∀ m, R m → (s.nodes m).built = false →
    (s.nodes m).kind.passes fun c => (s'.nodes c).mat.shape
  closed : ∀ m, R m → (s.nodes m).built = false → ∀ c ∈ (s.nodes m).kind.kids, R c
  scal : ∀ m, R m → ScalarOK s.heap (s.nodes m).kind
  ran : ∀ m, R m → (s.nodes m).built = false → ∃ h0 c0 f,
    Fin.run (fun c => (s'.nodes c).mat) (s.nodes m).kind ⟨h0, c0, (s.nodes m).mat⟩ = .ok () f ∧
    f.mat = (s'.nodes m).mat ∧ s.heap.next ≤ h0.next ∧ f.heap.next ≤ s'.heap.next ∧
    ∀ c ∈ (s.nodes m).kind.kids, GoodMat h0 (s'.nodes c).mat
  ctx : ∃ new, s'.ctx = s.ctx ++ new ∧ Block s.heap.next s'.heap.next new
    (fun val => ∀ m, R m → (s.nodes m).built = false →
      Sem (s.nodes m).kind (fun c => (s'.nodes c).mat) (s'.nodes m).mat val)
    (∀ m, R m → (s.nodes m).built = false →
      (s.nodes m).kind.redOK fun c => (s'.nodes c).mat.shape)

theorem scalarOK_mono {h h' : Heap T} {k : Kind T} (hs : ScalarOK h k) (he : h.next ≤ h'.next) :
    ScalarOK h' k := by
  cases k <;> simp only [ScalarOK] at hs ⊢
  exact ⟨hs.1, lt_of_lt_of_le hs.2 he⟩

theorem built_trans {R1 R2 : Nat → Prop} {s s1 s2 : Store T} (B1 : Built R1 s s1) (B2 : Built R2 s1 s2)
    (hsc : ∀ m, R2 m → ScalarOK s.heap (s.nodes m).kind) :
    Built (fun m => R1 m ∨ R2 m) s s2 := by
  obtain ⟨n1, c1, b1⟩ := B1.ctx
  obtain ⟨n2, c2, b2⟩ := B2.ctx
  have hk2 : ∀ m, R1 m → s2.nodes m = s1.nodes m := fun m hm => B2.keep m (Or.inl (B1.done m hm).1)
  have unb : ∀ m, ¬ R1 m → (s.nodes m).built = false → (s1.nodes m).built = false := by
    intro m hm hb; rw [B1.keep m (Or.inr hm)]; exact hb
  refine ⟨B1.ext.trans B2.ext, ?_, ?_, ?_, ?_, ?_, ?_, ?_, ?_, ?_, ?_, n1 ++ n2, ?_, ?_⟩
  · intro q h1 h2
    by_cases hq : q < s1.heap.next
    · rw [B2.ext.val q hq]; exact B1.zero q h1 hq
    · exact B2.zero q (by omega) h2
  · intro m; rw [B2.kind, B1.kind]
  · intro m hm
    rcases hm with hm | hm
    · have := B1.keep m (Or.inl hm)
      rw [B2.keep m (Or.inl (by rw [this]; exact hm)), this]
    · rw [B2.keep m (Or.inr fun h => hm (Or.inr h)), B1.keep m (Or.inr fun h => hm (Or.inl h))]
  · intro m hm
    by_cases h1 : R1 m
    · rw [hk2 m h1]
      exact ⟨(B1.done m h1).1, (B1.done m h1).2.mono B2.ext.next⟩
    · exact B2.done m (hm.resolve_left h1)
  · intro m hm; rw [B2.leaf m (by rw [B1.kind]; exact hm), B1.leaf m hm]
  · intro m hm hb
    by_cases h1 : R1 m
    · rw [hk2 m h1, B1.shape m h1 hb]
      exact outShape_get (fun c hc => by rw [hk2 c (B1.closed m h1 hb c hc)])
    · rw [B2.shape m (hm.resolve_left h1) (unb m h1 hb), B1.keep m (Or.inr h1)]
  · intro m hm hb
    by_cases h1 : R1 m
    · exact (passes_get (fun c hc => by rw [hk2 c (B1.closed m h1 hb c hc)])).1 (B1.passes m h1 hb)
    · have := B2.passes m (hm.resolve_left h1) (unb m h1 hb)
      rwa [B1.kind] at this
  · intro m hm hb c hc
    by_cases h1 : R1 m
    · exact Or.inl (B1.closed m h1 hb c hc)
    · exact Or.inr (B2.closed m (hm.resolve_left h1) (unb m h1 hb) c (by rw [B1.kind]; exact hc))
  · intro m hm
    rcases hm with hm | hm
    · exact B1.scal m hm
    · exact hsc m hm
  · intro m hm hb
    by_cases h1 : R1 m
    · obtain ⟨g0, c0, f, r1, r2, r3, r4, r5⟩ := B1.ran m h1 hb
      have hc : ∀ c ∈ (s.nodes m).kind.kids, (s1.nodes c).mat = (s2.nodes c).mat := fun c hc => by
        rw [hk2 c (B1.closed m h1 hb c hc)]
      refine ⟨g0, c0, f, ?_, by rw [hk2 m h1]; exact r2, r3, le_trans r4 B2.ext.next, fun c hc' => ?_⟩
      · rw [← r1]; exact congrFun (run_get fun c hc' => (hc c hc').symm) _
      · rw [← hc c hc']; exact r5 c hc'
    · obtain ⟨g0, c0, f, r1, r2, r3, r4, r5⟩ := B2.ran m (hm.resolve_left h1) (unb m h1 hb)
      rw [B1.keep m (Or.inr h1)] at r1 r5
      exact ⟨g0, c0, f, r1, r2, le_trans B1.ext.next r3, r4, r5⟩
  · rw [c2, c1, List.append_assoc]
  · have hst : ∀ val val' : Ptr → T, (∀ q, q < s1.heap.next → val' q = val q) →
        (∀ m, R1 m → (s.nodes m).built = false →
          Sem (s.nodes m).kind (fun c => (s1.nodes c).mat) (s1.nodes m).mat val) →
        ∀ m, R1 m → (s.nodes m).built = false →
          Sem (s.nodes m).kind (fun c => (s1.nodes c).mat) (s1.nodes m).mat val' := by
      intro val val' hv hs m hm hb
      refine sem_congr (B1.done m hm).2 (fun c hc => (B1.done c (B1.closed m hm hb c hc)).2)
        (scalarOK_mono (B1.scal m hm) B1.ext.next) hv (hs m hm hb)
    refine block_weaken (block_append B1.ext.next B2.ext.next b1 b2 hst) ?_ ?_
    · rintro v ⟨p1, p2⟩ m hm hb
      by_cases h1 : R1 m
      · rw [hk2 m h1]
        exact sem_get (fun c hc => by rw [hk2 c (B1.closed m h1 hb c hc)]) (p1 m h1 hb)
      · have := p2 m (hm.resolve_left h1) (unb m h1 hb)
        rwa [B1.kind] at this
    · refine ⟨fun hm => ⟨fun m h1 hb => ?_, fun m h2 hb => ?_⟩, fun hm m hR hb => ?_⟩
      · exact redOK_get (fun c hc => by rw [hk2 c (B1.closed m h1 hb c hc)]) (hm m (Or.inl h1) hb)
      rotate_left
      · by_cases h1 : R1 m
        · exact redOK_get (fun c hc => by rw [hk2 c (B1.closed m h1 hb c hc)]) (hm.1 m h1 hb)
        · have := hm.2 m (hR.resolve_left h1) (unb m h1 hb)
          rwa [B1.kind] at this
      · have hb' : (s.nodes m).built = false := by
          by_contra hc
          have hc' : (s.nodes m).built = true := by simpa using hc
          rw [B1.keep m (Or.inl hc'), hc'] at hb; cases hb
        rw [B1.kind]
        exact hm m (Or.inr h2) hb'

/-- tensors refer to older tensors -/
def Ordered (s : Store T) (n : Nat) : Prop :=
  ∀ m, Reach s n m → ∀ c ∈ (s.nodes m).kind.kids, c < m

theorem reach_trans {s : Store T} {a b c : Nat} (h1 : Reach s a b) (h2 : Reach s b c) : Reach s a c := by
  induction h1 with
  | refl _ => exact h2
  | step hb hk _ ih => exact .step hb hk (ih h2)

theorem reach_le {s : Store T} {n m : Nat} (ho : Ordered s n) (h : Reach s n m) : m ≤ n := by
  induction h with
  | refl _ => exact le_refl _
  | step hb hk hr ih =>
    have := ho _ (.refl _) _ hk
    have := ih (fun m hm => ho m (.step hb hk hm))
    omega

/-- reachability only looks at kinds and flags, of tensors up to the starting one -/
theorem reach_congr {s s' : Store T} {n m : Nat} (ho : Ordered s n)
    (he : ∀ x, x ≤ n → (s'.nodes x).kind = (s.nodes x).kind ∧ (s'.nodes x).built = (s.nodes x).built)
    (h : Reach s n m) : Reach s' n m := by
  induction h with
  | refl _ => exact .refl _
  | @step n c m hb hk hr ih =>
    have hlt := ho _ (.refl _) _ hk
    refine .step (by rw [(he n (le_refl _)).2]; exact hb) (by rw [(he n (le_refl _)).1]; exact hk)
      (ih (fun m hm => ho m (.step hb hk hm)) (fun x hx => he x (by omega)))

theorem expr_ordered {s : Store T} {n : Nat} (h : Expr s n) : Ordered s n := fun m hm => (h m hm).1

theorem expr_reach {s : Store T} {n m : Nat} (h : Expr s n) (hr : Reach s n m) : Expr s m :=
  fun x hx => h x (reach_trans hr hx)

/-- after building some tensors, what is reachable from `b` is what was reachable, cut at the
tensors built -/
theorem reach_after {R : Nat → Prop} {s s1 : Store T} (B : Built R s s1) {b m : Nat}
    (h : Reach s1 b m) : Reach s b m := by
  induction h with
  | refl _ => exact .refl _
  | @step n c m hb hk _ ih =>
    refine .step ?_ (by rw [B.kind] at hk; exact hk) ih
    by_contra hc
    rw [B.keep n (Or.inl (by simpa using hc))] at hb
    exact hc hb

theorem reach_closed {R : Nat → Prop} {s s1 : Store T} (B : Built R s s1) {b m : Nat}
    (h : Reach s b m) (hb : R b) : R m := by
  induction h with
  | refl _ => exact hb
  | step hb' hk _ ih => exact ih (B.closed _ hb hb' _ hk)

theorem reach_split {R : Nat → Prop} {s s1 : Store T} (B : Built R s s1) {b m : Nat}
    (h : Reach s b m) : R m ∨ Reach s1 b m := by
  induction h with
  | refl _ => exact Or.inr (.refl _)
  | @step n c m hb hk hr ih =>
    by_cases hR : R n
    · exact Or.inl (reach_closed B (.step hb hk hr) hR)
    · rcases ih with ih | ih
      · exact Or.inl ih
      · refine Or.inr (.step (by rw [B.keep n (Or.inr hR)]; exact hb) (by rw [B.kind]; exact hk) ih)

theorem expr_after {R : Nat → Prop} {s s1 : Store T} (B : Built R s s1) {b : Nat} (h : Expr s b) :
    Expr s1 b := by
  intro m hm
  have hm' := reach_after B hm
  obtain ⟨h1, h2, h3, h4⟩ := h m hm'
  refine ⟨by rw [B.kind]; exact h1, ?_, by rw [B.kind]; exact scalarOK_mono h3 B.ext.next,
    by rw [B.kind]; exact h4⟩
  intro hf
  by_cases hR : R m
  · exact (B.done m hR).2
  · have hk := B.keep m (Or.inr hR)
    rw [hk]
    refine (h2 ?_).mono B.ext.next
    unfold frozen at hf ⊢
    rwa [hk] at hf

theorem built_refl {R : Nat → Prop} {s : Store T} (hd : ∀ m, R m → (s.nodes m).built = true ∧
    GoodMat s.heap (s.nodes m).mat) (hs : ∀ m, R m → ScalarOK s.heap (s.nodes m).kind) : Built R s s := by
  refine ⟨Extends.refl _, fun q h1 h2 => absurd h2 (by omega), fun _ => rfl, fun _ _ => rfl, hd, fun _ _ => rfl,
    fun m hm hb => ?_, fun m hm hb => ?_, fun m hm hb => ?_, hs, fun m hm hb => ?_, [], (List.append_nil _).symm, ?_, ?_, ?_, ?_, ?_⟩
  · rw [(hd m hm).1] at hb; cases hb
  · rw [(hd m hm).1] at hb; cases hb
  · rw [(hd m hm).1] at hb; cases hb
  · rw [(hd m hm).1] at hb; cases hb
  · intro q hq; simp at hq
  · intro o ho; simp at ho
  · intro _ o ho; simp at ho
  · intro hn
    exact absurd (fun m hm hb => by rw [(hd m hm).1] at hb; cases hb) hn
  · intro h h' _ _ m hm hb
    rw [(hd m hm).1] at hb; cases hb

theorem built_congr {R R' : Nat → Prop} {s s' : Store T} (h : ∀ m, R m ↔ R' m) (B : Built R s s') :
    Built R' s s' := by
  have : R = R' := funext fun m => propext (h m)
  rw [← this]; exact B

/-- building a list of tensors, given what building one does -/
theorem each_ok {f : Nat → Store T → Out (Store T) Unit}
    (hf : ∀ c s s', Expr s c → 0 < s.heap.next → f c s = .ok () s' → Built (Reach s c) s s') :
    ∀ (cs : List Nat) (s s' : Store T), (∀ c ∈ cs, Expr s c) → 0 < s.heap.next →
      Store.each f cs s = .ok () s' → Built (fun m => ∃ c ∈ cs, Reach s c m) s s' := by
  intro cs
  induction cs with
  | nil =>
    intro s s' _ _ h
    simp only [Store.each, Out.ok.injEq, true_and] at h
    subst h
    exact built_refl (by simp) (by simp)
  | cons c cs ih =>
    intro s s' hE hpos h
    simp only [Store.each] at h
    cases hc : f c s with
    | ok u s1 =>
      rw [hc, Out.bind_ok] at h
      have B1 := hf c s s1 (hE c (by simp)) hpos hc
      have B2 := ih s1 s' (fun c' hc' => expr_after B1 (hE c' (by simp [hc'])))
        (lt_of_lt_of_le hpos B1.ext.next) h
      refine built_congr ?_ (built_trans B1 B2 ?_)
      · intro m
        constructor
        · rintro (h | ⟨c', hc', h⟩)
          · exact ⟨c, by simp, h⟩
          · exact ⟨c', by simp [hc'], reach_after B1 h⟩
        · rintro ⟨c', hc', h⟩
          rcases List.mem_cons.1 hc' with rfl | hc'
          · exact Or.inl h
          · rcases reach_split B1 h with h | h
            · exact Or.inl h
            · exact Or.inr ⟨c', hc', h⟩
      · rintro m ⟨c', hc', h⟩
        exact (hE c' (by simp [hc']) m (reach_after B1 h)).2.2.1
    | err e s1 => rw [hc] at h; cases h
    | panic => rw [hc] at h; cases h

/-- `BuildGraph` on an expression -/
theorem build_ok : ∀ (fuel n : Nat) (s s' : Store T), Expr s n → 0 < s.heap.next →
    Store.build fuel n s = .ok () s' → Built (Reach s n) s s' := by
  intro fuel
  induction fuel with
  | zero => intro n s s' _ _ h; cases h
  | succ fuel ih =>
    intro n s s' hE hpos h
    simp only [Store.build] at h
    obtain ⟨o1, o2, o3, o4⟩ := hE n (.refl n)
    by_cases hb : (s.nodes n).built = true
    · rw [if_pos hb] at h
      simp only [Out.ok.injEq, true_and] at h
      subst h
      have honly : ∀ m, Reach s n m → m = n := by
        intro m hm
        cases hm with
        | refl _ => rfl
        | step hb' _ _ => rw [hb] at hb'; cases hb'
      refine built_refl (fun m hm => ?_) (fun m hm => ?_)
      · rw [honly m hm]; exact ⟨hb, o2 (Or.inl hb)⟩
      · rw [honly m hm]; exact o3
    · rw [if_neg hb] at h
      have hb' : (s.nodes n).built = false := by simpa using hb
      set s0 := s.setNode n { s.nodes n with built := true } with hs0
      have h0 : ∀ x, x ≠ n → s0.nodes x = s.nodes x := fun x hx => by simp [hs0, Store.setNode, hx]
      have h0n : s0.nodes n = { s.nodes n with built := true } := by simp [hs0, Store.setNode]
      have hkin : ∀ c ∈ (s.nodes n).kind.kids, c < n := o1
      have hEc : ∀ c ∈ (s.nodes n).kind.kids, Expr s c := fun c hc =>
        expr_reach hE (.step hb' hc (.refl c))
      have hr0 : ∀ c ∈ (s.nodes n).kind.kids, ∀ m, Reach s0 c m ↔ Reach s c m := by
        intro c hc m
        have hlt := hkin c hc
        have hag : ∀ x, x ≤ c → (s0.nodes x).kind = (s.nodes x).kind ∧ (s0.nodes x).built = (s.nodes x).built :=
          fun x hx => by rw [h0 x (by omega)]; exact ⟨rfl, rfl⟩
        have hord := expr_ordered (hEc c hc)
        refine ⟨fun hr => ?_, reach_congr hord hag⟩
        refine reach_congr (s := s0) ?_ (fun x hx => ⟨(hag x hx).1.symm, (hag x hx).2.symm⟩) hr
        -- order in s0
        have : ∀ {a m}, a ≤ c → Ordered s a → Reach s0 a m → Reach s a m := by
          intro a m hac ha hr
          induction hr with
          | refl _ => exact .refl _
          | @step a c' m hb2 hk2 _ ih2 =>
            rw [(hag a hac).2] at hb2
            rw [(hag a hac).1] at hk2
            have hl := ha a (.refl a) _ hk2
            exact .step hb2 hk2 (ih2 (by omega) (fun y hy => ha y (.step hb2 hk2 hy)))
        intro y hy z hz
        have hy' := this (le_refl c) hord hy
        have hyle := reach_le hord hy'
        rw [(hag y hyle).1] at hz
        exact hord y hy' z hz
      have hE0 : ∀ c ∈ (s0.nodes n).kind.kids, Expr s0 c := by
        intro c hc m hm
        have hc' : c ∈ (s.nodes n).kind.kids := by simpa [h0n] using hc
        have hm' := (hr0 c hc' m).1 hm
        have hle := reach_le (expr_ordered (hEc c hc')) hm'
        have := hkin c hc'
        have hx := h0 m (by omega)
        unfold frozen
        rw [hx]
        exact hEc c hc' m hm'
      cases he : Store.each (fun c s => Store.build fuel c s) (s.nodes n).kind.kids s0 with
      | err e s1 => rw [he] at h; cases h
      | panic => rw [he] at h; cases h
      | ok u s1 =>
        rw [he, Out.bind_ok] at h
        have hkk : (s0.nodes n).kind.kids = (s.nodes n).kind.kids := by rw [h0n]
        have B := each_ok (fun c s s' => ih c s s') (s.nodes n).kind.kids s0 s1
          (fun c hc => hE0 c (by rw [hkk]; exact hc)) hpos he
        have hnR : ¬ ∃ c ∈ (s.nodes n).kind.kids, Reach s0 c n := by
          rintro ⟨c, hc, hr⟩
          have := reach_le (expr_ordered (hEc c hc)) ((hr0 c hc n).1 hr)
          have := hkin c hc
          omega
        have hn1 : s1.nodes n = { s.nodes n with built := true } := by
          rw [B.keep n (Or.inr hnR), h0n]
        -- the final step
        simp only [Store.finish, hn1] at h
        cases hf : Fin.run (fun m => (s1.nodes m).mat) (s.nodes n).kind
            ⟨s1.heap, s1.ctx, (s.nodes n).mat⟩ with
        | err e f => rw [hf] at h; cases h
        | panic => rw [hf] at h; cases h
        | ok u' f =>
          rw [hf] at h
          simp only [Out.ok.injEq, true_and] at h
          have hpos1 : 0 < s1.heap.next := lt_of_lt_of_le hpos B.ext.next
          have hkid : ∀ c ∈ (s.nodes n).kind.kids,
              (s1.nodes c).built = true ∧ GoodMat s1.heap (s1.nodes c).mat := fun c hc =>
            B.done c ⟨c, hc, .refl c⟩
          have F := fin_sound (get := fun m => (s1.nodes m).mat) (s := ⟨s1.heap, s1.ctx, (s.nodes n).mat⟩)
            (k := (s.nodes n).kind) hpos1 (fun c hc => (hkid c hc).2) (scalarOK_mono o3 B.ext.next)
            (fun hl => (o2 (by unfold frozen; rw [hl]; exact Or.inr trivial)).mono B.ext.next) o4 hf
          have hsx : ∀ x, x ≠ n → s'.nodes x = s1.nodes x := by
            intro x hx; rw [← h]; simp [Store.setNode, hx]
          have hsn : s'.nodes n = { s.nodes n with built := true, mat := f.mat } := by
            rw [← h]; simp [Store.setNode]
          have hsh : s'.heap = f.heap := by rw [← h]
          have hsc : s'.ctx = f.ctx := by rw [← h]
          have hkn : ∀ c ∈ (s.nodes n).kind.kids, c ≠ n := fun c hc => by have := hkin c hc; omega
          have hreach : ∀ m, Reach s n m ↔ m = n ∨ ∃ c ∈ (s.nodes n).kind.kids, Reach s0 c m := by
            intro m
            constructor
            · intro hr
              cases hr with
              | refl _ => exact Or.inl rfl
              | step hb2 hk2 hr => exact Or.inr ⟨_, hk2, (hr0 _ hk2 m).2 hr⟩
            · rintro (rfl | ⟨c, hc, hr⟩)
              · exact .refl _
              · exact .step hb' hc ((hr0 c hc m).1 hr)
          have hmem : ∀ m, (∃ c ∈ (s.nodes n).kind.kids, Reach s0 c m) → m ≠ n := by
            rintro m hm rfl; exact hnR hm
          obtain ⟨n1, c1, b1⟩ := B.ctx
          obtain ⟨n2, c2, b2⟩ := F.ctx
          simp only at c2 b2
          refine built_congr (fun m => (hreach m).symm) ⟨?_, ?_, ?_, ?_, ?_, ?_, ?_, ?_, ?_, ?_, ?_, n1 ++ n2, ?_, ?_⟩
          · rw [hsh]; exact B.ext.trans F.ext
          · intro q q1 q2
            rw [hsh] at q2 ⊢
            by_cases hq : q < s1.heap.next
            · rw [F.ext.val q hq]; exact B.zero q q1 hq
            · exact F.zero q (by simpa using hq) q2
          · intro m
            by_cases hm : m = n
            · subst hm; rw [hsn]
            · rw [hsx m hm, B.kind, h0 m hm]
          · intro m hm
            by_cases hmn : m = n
            · subst hmn
              rcases hm with hm | hm
              · exact absurd hm hb
              · exact absurd (Or.inl rfl) hm
            · rw [hsx m hmn, B.keep m ?_, h0 m hmn]
              rcases hm with hm | hm
              · left; rw [h0 m hmn]; exact hm
              · right; exact fun hc => hm (Or.inr hc)
          · intro m hm
            rcases hm with rfl | hm
            · rw [hsn, hsh]; exact ⟨rfl, F.good⟩
            · rw [hsx m (hmem m hm), hsh]
              exact ⟨(B.done m hm).1, (B.done m hm).2.mono F.ext.next⟩
          · intro m hm
            by_cases hmn : m = n
            · subst hmn
              rw [hsn]
              rw [hm] at hf
              exact run_leaf_mat hf
            · rw [hsx m hmn, B.leaf m (by rw [h0 m hmn]; exact hm), h0 m hmn]
          · intro m hm hbm
            by_cases hmn : m = n
            · subst hmn
              rw [hsn]
              refine (run_shape hf).trans (outShape_get fun c hc => ?_)
              rw [hsx c (hkn c hc)]
            · have hR := hm.resolve_left hmn
              have hbm0 : (s0.nodes m).built = false := by rw [h0 m hmn]; exact hbm
              rw [hsx m hmn, B.shape m hR hbm0, h0 m hmn]
              refine outShape_get fun c hc => ?_
              rw [hsx c (hmem c (B.closed m hR hbm0 c (by rw [h0 m hmn]; exact hc)))]
          · intro m hm hbm
            by_cases hmn : m = n
            · subst hmn
              refine (passes_get fun c hc => ?_).1 (run_passes o4 hf)
              rw [hsx c (hkn c hc)]
            · have hR := hm.resolve_left hmn
              have hbm0 : (s0.nodes m).built = false := by rw [h0 m hmn]; exact hbm
              have := B.passes m hR hbm0
              rw [h0 m hmn] at this
              refine (passes_get fun c hc => ?_).1 this
              rw [hsx c (hmem c (B.closed m hR hbm0 c (by rw [h0 m hmn]; exact hc)))]
          · intro m hm hbm c hc
            by_cases hmn : m = n
            · subst hmn; exact Or.inr ⟨c, hc, .refl c⟩
            · exact Or.inr (B.closed m (hm.resolve_left hmn) (by rw [h0 m hmn]; exact hbm) c
                (by rw [h0 m hmn]; exact hc))
          · intro m hm
            exact (hE m ((hreach m).2 hm)).2.2.1
          · intro m hm hbm
            by_cases hmn : m = n
            · subst hmn
              refine ⟨s1.heap, s1.ctx, f, ?_, by rw [hsn], B.ext.next, by rw [hsh], fun c hc => ?_⟩
              · rw [← hf]; exact congrFun (run_get fun c hc => by rw [hsx c (hkn c hc)]) _
              · rw [hsx c (hkn c hc)]; exact (hkid c hc).2
            · have hR := hm.resolve_left hmn
              have hbm0 : (s0.nodes m).built = false := by rw [h0 m hmn]; exact hbm
              obtain ⟨g0, c0, f', r1, r2, r3, r4, r5⟩ := B.ran m hR hbm0
              rw [h0 m hmn] at r1 r5
              have hcc : ∀ c ∈ (s.nodes m).kind.kids, s'.nodes c = s1.nodes c := fun c hc =>
                hsx c (hmem c (B.closed m hR hbm0 c (by rw [h0 m hmn]; exact hc)))
              refine ⟨g0, c0, f', ?_, by rw [hsx m hmn]; exact r2, r3, ?_, fun c hc => ?_⟩
              · rw [← r1]; exact congrFun (run_get fun c hc => by rw [hcc c hc]) _
              · rw [hsh]; exact le_trans r4 F.ext.next
              · rw [hcc c hc]; exact r5 c hc
          · rw [hsc, c2, c1, List.append_assoc]; rfl
          · have hst : ∀ val val' : Ptr → T, (∀ q, q < s1.heap.next → val' q = val q) →
                (∀ m, (∃ c ∈ (s.nodes n).kind.kids, Reach s0 c m) → (s0.nodes m).built = false →
                  Sem (s0.nodes m).kind (fun c => (s1.nodes c).mat) (s1.nodes m).mat val) →
                ∀ m, (∃ c ∈ (s.nodes n).kind.kids, Reach s0 c m) → (s0.nodes m).built = false →
                  Sem (s0.nodes m).kind (fun c => (s1.nodes c).mat) (s1.nodes m).mat val' := by
              intro val val' hv hs m hm hbm
              exact sem_congr (B.done m hm).2 (fun c hc => (B.done c (B.closed m hm hbm c hc)).2)
                (scalarOK_mono (B.scal m hm) B.ext.next) hv (hs m hm hbm)
            rw [hsh]
            refine block_weaken (block_append B.ext.next F.ext.next b1 b2 hst) ?_ ?_
            · rintro v ⟨p1, p2⟩ m hm hbm
              by_cases hmn : m = n
              · subst hmn
                rw [hsn]
                exact sem_get (fun c hc => by rw [hsx c (hkn c hc)]) p2
              · have hR := hm.resolve_left hmn
                have hbm0 : (s0.nodes m).built = false := by rw [h0 m hmn]; exact hbm
                have := p1 m hR hbm0
                rw [hsx m hmn]
                rw [h0 m hmn] at this
                refine sem_get (fun c hc => ?_) this
                rw [hsx c]
                exact hmem c (B.closed m hR hbm0 c (by rw [h0 m hmn]; exact hc))
            · refine ⟨fun hall => ⟨fun m hm hbm => ?_, ?_⟩, fun hall m hm hbm => ?_⟩
              · have hmn := hmem m hm
                rw [h0 m hmn]
                refine redOK_get (fun c hc => ?_) (hall m (Or.inr hm) (by rw [← h0 m hmn]; exact hbm))
                rw [hsx c (hmem c (B.closed m hm hbm c (by rw [h0 m hmn]; exact hc)))]
              · refine redOK_get (fun c hc => ?_) (hall n (Or.inl rfl) hb')
                rw [hsx c (hkn c hc)]
              · by_cases hmn : m = n
                · subst hmn
                  refine redOK_get (fun c hc => ?_) hall.2
                  rw [hsx c (hkn c hc)]
                · have hR := hm.resolve_left hmn
                  have hbm0 : (s0.nodes m).built = false := by rw [h0 m hmn]; exact hbm
                  have := hall.1 m hR hbm0
                  rw [h0 m hmn] at this
                  refine redOK_get (fun c hc => ?_) this
                  rw [hsx c (hmem c (B.closed m hR hbm0 c (by rw [h0 m hmn]; exact hc)))]

end Godeep
