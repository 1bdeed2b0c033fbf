import Verif.Lemmas.Value
/-
  When executing an operation list succeeds.
-/
set_option linter.unusedSectionVars false

namespace Godeep
open Spec GoNum

variable {T : Type} [GoNum T]

theorem load_pos {h : Heap T} {p : Ptr} (hp : 0 < p) : h.load p = .ok (h.val p) := by
  simp [Heap.load, Nat.pos_iff_ne_zero.1 hp]

theorem loadAll_pos {h : Heap T} {ps : List Ptr} (hp : ∀ p ∈ ps, 0 < p) :
    h.loadAll ps = .ok (ps.map h.val) := by
  unfold Heap.loadAll
  induction ps with
  | nil => rfl
  | cons p ps ih =>
    simp only [Res.mapM]
    rw [load_pos (hp p (by simp)), ih (fun q hq => hp q (by simp [hq]))]; rfl

theorem divR_total (hd : ∀ x y : T, divPanics x y = false) (x y : T) :
    divR x y = .ok (GoNum.div x y) := by simp [divR, hd]

/-- evaluating an operation on existing cells -/
theorem eval_total (hd : ∀ x y : T, divPanics x y = false) {r : Rhs T} {h : Heap T} {p : Ptr}
    (hr : ∀ q ∈ r.reads, 0 < q) (hn : ArgsNonempty (.asg p r)) : ∃ v, r.eval h = .ok v := by
  cases r <;> simp only [Rhs.reads, List.mem_cons, List.not_mem_nil, or_false, forall_eq_or_imp,
    forall_eq] at hr <;> simp only [Rhs.eval]
  case add a b => rw [load_pos hr.1, load_pos hr.2]; exact ⟨_, rfl⟩
  case sub a b => rw [load_pos hr.1, load_pos hr.2]; exact ⟨_, rfl⟩
  case mul a b => rw [load_pos hr.1, load_pos hr.2]; exact ⟨_, rfl⟩
  case div a b => rw [load_pos hr.1, load_pos hr.2]; exact ⟨_, divR_total hd _ _⟩
  case equals a b => rw [load_pos hr.1, load_pos hr.2]; exact ⟨_, rfl⟩
  case neg a => rw [load_pos hr]; exact ⟨_, rfl⟩
  case abs a => rw [load_pos hr]; exact ⟨_, rfl⟩
  case set a => rw [load_pos hr]; exact ⟨_, rfl⟩
  case func f a => rw [load_pos hr]; exact ⟨_, rfl⟩
  all_goals
    rename_i args
    rw [loadAll_pos hr]
    cases args with
    | nil => exact absurd rfl hn
    | cons a args => first | exact ⟨_, rfl⟩ | exact ⟨_, divR_total hd _ _⟩

theorem exec_total (hd : ∀ x y : T, divPanics x y = false) : ∀ (ops : List (Op T)) (h : Heap T),
    (∀ q ∈ dsts ops, 0 < q) → (∀ o ∈ ops, ∀ q ∈ o.reads, 0 < q) → (∀ o ∈ ops, ArgsNonempty o) →
    ∃ h', exec ops h = .ok () h' := by
  intro ops
  induction ops with
  | nil => intro h _ _ _; exact ⟨h, rfl⟩
  | cons o ops ih =>
    intro h h1 h2 h3
    cases o with
    | nop p =>
      obtain ⟨h', he⟩ := ih h (fun q hq => h1 q (by simpa using hq)) (fun o ho => h2 o (by simp [ho]))
        (fun o ho => h3 o (by simp [ho]))
      exact ⟨h', by simpa [exec, Op.cal] using he⟩
    | asg p r =>
      obtain ⟨v, hv⟩ := eval_total hd (r := r) (p := p) (h := h) (h2 (.asg p r) (by simp)) (h3 (.asg p r) (by simp))
      obtain ⟨h', he⟩ := ih (h.put p v) (fun q hq => h1 q (by simp [hq])) (fun o ho => h2 o (by simp [ho]))
        (fun o ho => h3 o (by simp [ho]))
      exact ⟨h', exec_cons_asg_ok.2 ⟨Nat.pos_iff_ne_zero.1 (h1 p (by simp)), v, hv, he⟩⟩

/-- a successful evaluation had something to reduce -/
theorem eval_nonempty {r : Rhs T} {h : Heap T} {p : Ptr} {v : T} (he : r.eval h = .ok v) :
    ArgsNonempty (.asg p r) := by
  cases r <;> simp only [ArgsNonempty] <;> rintro rfl <;> cases he

theorem exec_nonempty {ops : List (Op T)} {h h' : Heap T} (he : exec ops h = .ok () h') :
    ∀ o ∈ ops, ArgsNonempty o := by
  induction ops generalizing h with
  | nil => intro o ho; simp at ho
  | cons o ops ih =>
    cases o with
    | nop p =>
      intro o ho
      rcases List.mem_cons.1 ho with rfl | ho
      · trivial
      · exact ih (by simpa [exec, Op.cal] using he) o ho
    | asg p r =>
      obtain ⟨_, v, hv, he⟩ := exec_cons_asg_ok.1 he
      intro o ho
      rcases List.mem_cons.1 ho with rfl | ho
      · exact eval_nonempty hv
      · exact ih he o ho

theorem mapM_load_noErr {h : Heap T} (ps : List Ptr) (e : Err) : h.loadAll ps ≠ .err e := by
  unfold Heap.loadAll
  induction ps with
  | nil => simp [Res.mapM]
  | cons p ps ih =>
    simp only [Res.mapM, Heap.load]
    by_cases hp : p = 0
    · simp [hp]
    · rw [if_neg hp, Res.bind_ok]
      cases hm : Res.mapM h.load ps with
      | ok xs => simp
      | err e' => rw [hm] at ih; simp only [Res.map_err]; exact ih
      | panic => simp

theorem load_noErr (h : Heap T) (p : Ptr) (e : Err) : h.load p ≠ .err e := by
  unfold Heap.load; split <;> simp

theorem bind_noErr {α β : Type} {r : Res α} {f : α → Res β} {e : Err} (h1 : r ≠ .err e)
    (h2 : ∀ a, f a ≠ .err e) : r.bind f ≠ .err e := by
  cases r with
  | ok a => exact h2 a
  | err e' => exact fun h => h1 (by simpa using h)
  | panic => simp

theorem map_noErr {α β : Type} {r : Res α} {f : α → β} {e : Err} (h1 : r ≠ .err e) :
    r.map f ≠ .err e := by
  cases r with
  | ok a => simp
  | err e' => exact fun h => h1 (by simpa using h)
  | panic => simp

theorem divR_noErr (x y : T) (e : Err) : divR x y ≠ .err e := by unfold divR; split <;> simp

theorem eval_noErr (r : Rhs T) (h : Heap T) (e : Err) : r.eval h ≠ .err e := by
  cases r <;> simp only [Rhs.eval]
  case div a b => exact bind_noErr (load_noErr _ _ _) fun _ => bind_noErr (load_noErr _ _ _) fun _ => divR_noErr _ _ _
  case set o => exact load_noErr _ _ _
  case neg o => exact map_noErr (load_noErr _ _ _)
  case abs o => exact map_noErr (load_noErr _ _ _)
  case func f o => exact map_noErr (load_noErr _ _ _)
  case avg args =>
    refine bind_noErr (mapM_load_noErr _ _) fun vs => ?_
    cases vs with
    | nil => simp
    | cons v vs => exact divR_noErr _ _ _
  all_goals first
    | exact bind_noErr (load_noErr _ _ _) fun _ => map_noErr (load_noErr _ _ _)
    | refine bind_noErr (mapM_load_noErr _ _) fun vs => ?_
      cases vs <;> simp

theorem exec_noErr : ∀ (ops : List (Op T)) (h : Heap T) (e : Err) (h' : Heap T), exec ops h ≠ .err e h' := by
  intro ops
  induction ops with
  | nil => intro h e h'; simp [exec]
  | cons o ops ih =>
    intro h e h'
    cases o with
    | nop p => simp only [exec, Op.cal, Out.bind_ok]; exact ih h e h'
    | asg p r =>
      simp only [exec, Op.cal]
      cases hv : r.eval h with
      | ok v =>
        simp only [Heap.store]
        by_cases hp : p = 0
        · simp [hp]
        · simp only [hp, if_false, Out.bind_ok]; exact ih _ e h'
      | err e' => exact absurd hv (eval_noErr r h e')
      | panic => simp

theorem divR_total' {x y : T} (hd : ¬ divPanics x y = true) : divR x y = .ok (GoNum.div x y) := by
  simp [divR, hd]

theorem eval_cause {r : Rhs T} {h : Heap T} {p : Ptr} (hr : ∀ q ∈ r.reads, 0 < q)
    (he : r.eval h = .panic) : ¬ ArgsNonempty (.asg p r) ∨ DivAborts h (.asg p r) := by
  by_contra hc
  push Not at hc
  obtain ⟨hn, hd⟩ := hc
  cases r <;> simp only [Rhs.reads, List.mem_cons, List.not_mem_nil, or_false, forall_eq_or_imp,
    forall_eq] at hr <;> simp only [Rhs.eval] at he
  case add a b => rw [load_pos hr.1, load_pos hr.2] at he; cases he
  case sub a b => rw [load_pos hr.1, load_pos hr.2] at he; cases he
  case mul a b => rw [load_pos hr.1, load_pos hr.2] at he; cases he
  case div a b =>
    rw [load_pos hr.1, load_pos hr.2, Res.bind_ok, Res.bind_ok, divR_total' hd] at he; cases he
  case equals a b => rw [load_pos hr.1, load_pos hr.2] at he; cases he
  case neg a => rw [load_pos hr] at he; cases he
  case abs a => rw [load_pos hr] at he; cases he
  case set a => rw [load_pos hr] at he; cases he
  case func f a => rw [load_pos hr] at he; cases he
  case avg args =>
    rw [loadAll_pos hr] at he
    cases args with
    | nil => exact absurd rfl hn
    | cons a args =>
      simp only [List.map_cons, Res.bind_ok] at he
      rw [divR_total' (by simpa [DivAborts, sum1] using hd)] at he; cases he
  all_goals
    rename_i args
    rw [loadAll_pos hr] at he
    cases args with
    | nil => exact absurd rfl hn
    | cons a args => cases he

/-- an aborting operation list stops at an operation that has nothing to reduce or whose division
aborts -/
theorem exec_cause : ∀ (ops : List (Op T)) (h : Heap T),
    (∀ q ∈ dsts ops, 0 < q) → (∀ o ∈ ops, ∀ q ∈ o.reads, 0 < q) → exec ops h = .panic →
    ∃ pre o post h1, ops = pre ++ o :: post ∧ exec pre h = .ok () h1 ∧
      (¬ ArgsNonempty o ∨ DivAborts h1 o) := by
  intro ops
  induction ops with
  | nil => intro h _ _ hp; cases hp
  | cons o ops ih =>
    intro h h1 h2 hp
    have h2' : ∀ o ∈ ops, ∀ q ∈ o.reads, 0 < q := fun o ho => h2 o (by simp [ho])
    cases o with
    | nop p =>
      obtain ⟨pre, o, post, g, e1, e2, e3⟩ := ih h (fun q hq => h1 q (by simpa using hq)) h2'
        (by simpa [exec, Op.cal] using hp)
      exact ⟨.nop p :: pre, o, post, g, by rw [e1]; rfl, by simpa [exec, Op.cal] using e2, e3⟩
    | asg p r =>
      have hp0 : p ≠ 0 := Nat.pos_iff_ne_zero.1 (h1 p (by simp))
      cases hv : r.eval h with
      | ok v =>
        simp only [exec, Op.cal, hv, Heap.store, hp0, if_false, Out.bind_ok] at hp
        obtain ⟨pre, o, post, g, e1, e2, e3⟩ := ih _ (fun q hq => h1 q (by simp [hq])) h2' hp
        exact ⟨.asg p r :: pre, o, post, g, by rw [e1]; rfl,
          exec_cons_asg_ok.2 ⟨hp0, v, hv, e2⟩, e3⟩
      | err e => exact absurd hv (eval_noErr r h e)
      | panic => exact ⟨[], _, ops, h, rfl, rfl, eval_cause (h2 (.asg p r) (by simp)) hv⟩

/-! ### a graph and the heap it is executed in -/

/-- executing keeps the cells the graph does not assign -/
theorem exec_keeps {ops : List (Op T)} {h h' : Heap T} (he : exec ops h = .ok () h') {q : Ptr}
    (hq : ∀ r, Op.asg q r ∉ ops) : h'.val q = h.val q := by
  refine (exec_frame he).2 q fun hm => ?_
  obtain ⟨o, ho, hd⟩ := List.mem_filterMap.1 hm
  cases o with
  | nop p => cases hd
  | asg p r =>
    simp only [Op.dst, Option.some.injEq] at hd
    subst hd
    exact hq r ho

theorem mem_dsts {ops : List (Op T)} {q : Ptr} : q ∈ dsts ops ↔ ∃ r, Op.asg q r ∈ ops := by
  constructor
  · intro hm
    obtain ⟨o, ho, hd⟩ := List.mem_filterMap.1 hm
    cases o with
    | nop p => cases hd
    | asg p r =>
      simp only [Op.dst, Option.some.injEq] at hd
      subst hd
      exact ⟨r, ho⟩
  · rintro ⟨r, hr⟩
    exact List.mem_filterMap.2 ⟨_, hr, rfl⟩

/-! ### values and shapes -/

theorem den_some {k : Kind T} {val : Ptr → T} {own : List Nat} {env : Nat → STensor T} {t : STensor T}
    (h : k.den val own env = some t) :
    k.fits (fun c => (env c).shape) ∧ t.shape = k.outShape own fun c => (env c).shape := by
  cases k <;> simp only [Kind.den] at h
  case leaf => cases h
  case fill => cases h
  case copy => cases h
  case op2 o a b =>
    split at h
    · rename_i hf; injection h with h; rw [← h]; exact ⟨hf, rfl⟩
    · cases h
  case dimMath r d t' =>
    split at h
    · rename_i hf; injection h with h; rw [← h]; exact ⟨hf, rfl⟩
    · cases h
  case dot dims a b =>
    split at h
    · rename_i hf; injection h with h; rw [← h]
      refine ⟨hf, ?_⟩
      simp only [Kind.outShape]
      split <;> rfl
    · cases h
  case concat d a b =>
    split at h
    · rename_i hf; injection h with h; rw [← h]; exact ⟨hf, rfl⟩
    · cases h
  case sub d s e g t' =>
    split at h
    · rename_i hf; injection h with h; rw [← h]
      refine ⟨hf, ?_⟩
      cases g <;> rfl
    · cases h
  all_goals injection h with h; rw [← h]; exact ⟨trivial, rfl⟩

theorem den_of_fits {k : Kind T} {val : Ptr → T} {own : List Nat} {env : Nat → STensor T}
    (hex : k.isExpr) (hl : k ≠ .leaf) (h : k.fits fun c => (env c).shape) :
    ∃ t, k.den val own env = some t := by
  cases k <;> simp only [Kind.den]
  case leaf => exact absurd rfl hl
  case fill => cases hex
  case copy => cases hex
  case op2 o a b => exact ⟨_, if_pos h⟩
  case dimMath r d t' => exact ⟨_, if_pos h⟩
  case dot dims a b => exact ⟨_, if_pos h⟩
  case concat d a b => exact ⟨_, if_pos h⟩
  case sub d s e g t' => exact ⟨_, if_pos h⟩
  all_goals exact ⟨_, rfl⟩

/-- an expression has a value exactly when it is well-shaped, and then that shape -/
theorem value_shape {s : Store T} {val : Ptr → T} : ∀ (fuel n : Nat),
    (∀ m, Reach s n m → (s.nodes m).kind.isExpr) →
    (value s val fuel n).map STensor.shape = shapeOf s fuel n := by
  intro fuel
  induction fuel with
  | zero => intro n _; rfl
  | succ fuel ih =>
    intro n hex
    simp only [value, shapeOf]
    by_cases hf : frozen s n
    · rw [if_pos hf, if_pos hf]; rfl
    · rw [if_neg hf, if_neg hf]
      obtain ⟨hb, hl⟩ := not_frozen hf
      have ih' : ∀ c ∈ (s.nodes n).kind.kids, (value s val fuel c).map STensor.shape = shapeOf s fuel c :=
        fun c hc => ih c fun m hm => hex m (.step hb hc hm)
      have hsome : ∀ c ∈ (s.nodes n).kind.kids, (value s val fuel c).isSome = (shapeOf s fuel c).isSome := by
        intro c hc; rw [← ih' c hc]; simp
      have hall : ((s.nodes n).kind.kids.all fun c => (value s val fuel c).isSome) =
          (s.nodes n).kind.kids.all fun c => (shapeOf s fuel c).isSome := by
        rw [Bool.eq_iff_iff, List.all_eq_true, List.all_eq_true]
        exact ⟨fun h c hc => by rw [← hsome c hc]; exact h c hc, fun h c hc => by rw [hsome c hc]; exact h c hc⟩
      rw [hall]
      by_cases hk : ((s.nodes n).kind.kids.all fun c => (shapeOf s fuel c).isSome) = true
      · rw [if_pos hk]
        have hsh : ∀ c ∈ (s.nodes n).kind.kids,
            ((value s val fuel c).getD ⟨[], fun _ => zero⟩).tab.shape = (shapeOf s fuel c).getD [] := by
          intro c hc
          rw [← ih' c hc]
          cases value s val fuel c <;> rfl
        have hfit := fits_get (k := (s.nodes n).kind) hsh
        by_cases hft : (s.nodes n).kind.fits fun c => (shapeOf s fuel c).getD []
        · rw [if_pos ⟨hk, hft⟩]
          obtain ⟨t, ht⟩ := den_of_fits (val := val) (own := (s.nodes n).mat.shape)
            (env := fun c => ((value s val fuel c).getD ⟨[], fun _ => zero⟩).tab) (hex n (.refl n)) hl
            (hfit.2 hft)
          rw [ht, Option.map_some, (den_some ht).2]
          congr 1
          exact outShape_get hsh
        · rw [if_neg fun h => hft h.2]
          cases hd : (s.nodes n).kind.den val (s.nodes n).mat.shape
            (fun c => ((value s val fuel c).getD ⟨[], fun _ => zero⟩).tab) with
          | none => rfl
          | some t => exact absurd (hfit.1 (den_some hd).1) hft
      · rw [if_neg hk, if_neg fun h => hk h.1]; rfl

end Godeep
