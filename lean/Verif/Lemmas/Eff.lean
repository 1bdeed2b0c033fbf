import Verif.Lemmas.Emit
import Mathlib.Logic.Function.Basic
/-
  What loops of emitted operations compute, as functions on the values of scalars.
-/
set_option linter.unusedSectionVars false

namespace Godeep
open Spec GoNum

variable {T : Type} {α β : Type} [GoNum T]

/-- the value of a right-hand side -/
def Rhs.ev (v : Ptr → T) : Rhs T → T
  | add a b => GoNum.add (v a) (v b)
  | sub a b => GoNum.sub (v a) (v b)
  | mul a b => GoNum.mul (v a) (v b)
  | div a b => GoNum.div (v a) (v b)
  | neg o => GoNum.neg (v o)
  | abs o => if lt (v o) zero then GoNum.neg (v o) else v o
  | set o => v o
  | func f o => f (v o)
  | equals a b => if eq (v a) (v b) then one else zero
  | sum args => sum1 (args.map v)
  | avg args => GoNum.div (sum1 (args.map v)) (ofNat args.length)
  | max args => max1 (args.map v)
  | min args => min1 (args.map v)

/-- the values after executing operations -/
def execV : List (Op T) → (Ptr → T) → Ptr → T
  | [], v => v
  | .nop _ :: l, v => execV l v
  | .asg p r :: l, v => execV l (Function.update v p (r.ev v))

@[simp] theorem execV_nil (v : Ptr → T) : execV [] v = v := rfl
@[simp] theorem execV_nop (p : Ptr) (l : List (Op T)) (v : Ptr → T) : execV (.nop p :: l) v = execV l v := rfl
@[simp] theorem execV_asg (p : Ptr) (r : Rhs T) (l : List (Op T)) (v : Ptr → T) :
    execV (.asg p r :: l) v = execV l (Function.update v p (r.ev v)) := rfl

theorem execV_append (a b : List (Op T)) (v : Ptr → T) : execV (a ++ b) v = execV b (execV a v) := by
  induction a generalizing v with
  | nil => rfl
  | cons o a ih => cases o <;> simp [ih]

theorem execV_frame {ops : List (Op T)} {v : Ptr → T} {q : Ptr} (hq : q ∉ dsts ops) : execV ops v q = v q := by
  induction ops generalizing v with
  | nil => rfl
  | cons o ops ih =>
    cases o with
    | nop p => exact ih hq
    | asg p r =>
      simp only [dsts_asg, List.mem_cons, not_or] at hq
      rw [execV_asg, ih hq.2, Function.update_of_ne hq.1]

theorem divR_eval {x y v : T} (h : GoNum.divR x y = .ok v) : v = GoNum.div x y := by
  unfold GoNum.divR at h
  split at h
  · cases h
  · injection h with h; exact h.symm

theorem ev_eval {r : Rhs T} {h : Heap T} {v : T} (he : r.eval h = .ok v) : v = r.ev h.val := by
  have two : ∀ {a b : Ptr} {f : T → T → T}, ((h.load a).bind fun x => (h.load b).map fun y => f x y) = .ok v → v = f (h.val a) (h.val b) := by
    intro a b f he
    obtain ⟨x, h1, he⟩ := res_bind_ok he
    rw [(load_ok h1).2] at he
    cases h2 : h.load b with
    | ok y => rw [h2] at he; simp only [Res.map_ok, Res.ok.injEq] at he; rw [← he, (load_ok h2).2]
    | err e => rw [h2] at he; cases he
    | panic => rw [h2] at he; cases he
  have onef : ∀ {a : Ptr} {f : T → T}, ((h.load a).map f) = .ok v → v = f (h.val a) := by
    intro a f he
    cases h2 : h.load a with
    | ok y => rw [h2] at he; simp only [Res.map_ok, Res.ok.injEq] at he; rw [← he, (load_ok h2).2]
    | err e => rw [h2] at he; cases he
    | panic => rw [h2] at he; cases he
  cases r with
  | add a b => exact two he
  | sub a b => exact two he
  | mul a b => exact two he
  | equals a b => exact two (f := fun x y => if eq x y then one else zero) he
  | neg a => exact onef he
  | abs a => exact onef (f := fun x => if lt x zero then GoNum.neg x else x) he
  | func f a => exact onef he
  | set a => exact (load_ok he).2
  | div a b =>
    obtain ⟨x, h1, he⟩ := res_bind_ok he
    obtain ⟨y, h2, he⟩ := res_bind_ok he
    rw [divR_eval he, (load_ok h1).2, (load_ok h2).2]; rfl
  | sum args => exact sum_eval he
  | avg args =>
    obtain ⟨vs, h1, he⟩ := res_bind_ok he
    have e := loadAll_ok h1
    cases vs with
    | nil => cases he
    | cons x vs =>
      show _ = GoNum.div (sum1 (args.map h.val)) _
      rw [divR_eval he, ← e]; rfl
  | max args => exact red_eval (o := .max) he
  | min args => exact red_eval (o := .min) he

theorem exec_val {ops : List (Op T)} {h h' : Heap T} (he : exec ops h = .ok () h') : h'.val = execV ops h.val := by
  induction ops generalizing h with
  | nil => simp only [exec, Out.ok.injEq, true_and] at he; subst he; rfl
  | cons o ops ih =>
    cases o with
    | nop p => exact ih (by simpa [exec, Op.cal] using he)
    | asg p r =>
      obtain ⟨hp, v, hv, he⟩ := exec_cons_asg_ok.1 he
      rw [ih he, execV_asg]
      congr 1
      funext q
      rw [ev_eval hv]
      simp only [Heap.put, Function.update_apply]

/-! ### programs that emit -/

/-- With the tensors and layers of `N` and next free scalar `lo`, the program returns `x`, pushes `ops` and leaves `hi` as the next free scalar. -/
def Em (N : World T) (a : Run T α) (lo hi : Nat) (x : α) (ops : List (Op T)) : Prop :=
  lo ≤ hi ∧ ∀ w : World T, w.store.nodes = N.store.nodes → w.layers = N.layers → w.store.heap.next = lo → a w = .ok x (emitted (hi - lo) ops w)

theorem Em.pure {N : World T} (x : α) (lo : Nat) : Em N (Pure.pure x : Run T α) lo lo x [] :=
  ⟨le_refl _, fun w _ _ _ => by rw [Nat.sub_self, emitted_nil]; rfl⟩

theorem Em.bind {N : World T} {a : Run T α} {f : α → Run T β} {lo mid hi : Nat} {x : α} {y : β} {o1 o2 : List (Op T)}
    (h1 : Em N a lo mid x o1) (h2 : Em N (f x) mid hi y o2) : Em N (a >>= f) lo hi y (o1 ++ o2) := by
  have l1 := h1.1
  have l2 := h2.1
  refine ⟨by omega, fun w hw hy hl => ?_⟩
  show (a w).bind f = _
  rw [h1.2 w hw hy hl]
  show f x (emitted (mid - lo) o1 w) = _
  rw [h2.2 (emitted (mid - lo) o1 w) hw hy (by rw [emitted_next, hl]; omega), emitted_emitted]
  congr 2
  omega

theorem Em.of {N : World T} {a : Run T α} {r : Nat → α} {k : Nat} {o : Nat → List (Op T)} (h : Emits N.store.nodes a r k o) (lo : Nat) :
    Em N a lo (lo + k) (r lo) (o lo) :=
  ⟨by omega, fun w hw _ hl => by rw [h w hw, hl]; congr 2; omega⟩

theorem Em.push {N : World T} (o : Op T) (lo : Nat) : Em N (Run.push o) lo lo () [o] := Em.of (Emits.push o) lo

theorem Em.emit {N : World T} (r : Rhs T) (lo : Nat) : Em N (Run.emit r) lo (lo + 1) lo [.asg lo r] := Em.of (Emits.emit r) lo

theorem Em.scalar {N : World T} (lo : Nat) : Em N (Run.scalar (zero : T)) lo (lo + 1) lo [] := Em.of Emits.scalar lo

theorem Em.operand {N : World T} {n : Nat} {idx : List Nat} {h : Heap T} {m : Mat} (hm : (N.store.nodes n).mat = m) (g : GoodMat h m)
    (hi : InRange m.shape idx) (lo : Nat) : Em N (Run.operand n idx) lo lo (cell m idx) [] := Em.of (Emits.operand hm g hi) lo

theorem Em.operandAt {N : World T} {n i : Nat} {h : Heap T} {m : Mat} (hm : (N.store.nodes n).mat = m) (g : GoodMat h m)
    (hi : i < size m.shape) (lo : Nat) : Em N (Run.operandAt n i) lo lo (m.ops.getD i 0) [] := Em.of (Emits.operandAt hm g hi) lo

theorem Em.lift {N : World T} {r : Res α} {a : α} (h : r = .ok a) (lo : Nat) : Em N (Run.lift r : Run T α) lo lo a [] :=
  Em.of (Emits.lift h) lo

/-- `ops` computes into new scalars the values `e` of the scalars below `base`; they are in `ps` -/
structure Vals (base lo hi : Nat) (ops : List (Op T)) (ps : List Ptr) (e : (Ptr → T) → List T) (safe : Prop) : Prop where
  le : lo ≤ hi
  dst : ∀ q ∈ dsts ops, lo ≤ q ∧ q < hi
  fine : safe → ∀ o ∈ ops, Fine o
  rng : ∀ p ∈ ps, 0 < p ∧ p < hi
  val : ∀ v, ps.map (execV ops v) = e v
  loc : ∀ v v', (∀ q < base, v q = v' q) → e v = e v'

/-- a scalar that is there already -/
theorem Vals.old {base lo : Nat} {p : Ptr} {safe : Prop} (hp : 0 < p ∧ p < base) (hb : base ≤ lo) :
    Vals base lo lo ([] : List (Op T)) [p] (fun v => [v p]) safe :=
  ⟨le_refl _, by simp, by simp, by simp; omega, fun v => rfl, fun v v' h => by rw [h p hp.2]⟩

theorem Vals.mul {base lo : Nat} {p q : Ptr} {safe : Prop} (hp : 0 < p ∧ p < base) (hq : 0 < q ∧ q < base) (hb : base ≤ lo) :
    Vals base lo (lo + 1) ([.asg lo (.mul p q)] : List (Op T)) [lo] (fun v => [GoNum.mul (v p) (v q)]) safe := by
  refine ⟨by omega, by simp, fun _ o ho => ?_, by simp; omega, fun v => by simp [Rhs.ev], fun v v' h => by rw [h p hp.2, h q hq.2]⟩
  simp only [List.mem_singleton] at ho
  subst ho
  exact ⟨by omega, by simp [Rhs.reads]; omega, trivial, trivial⟩

theorem Vals.collect {ι : Type} {N : World T} {base : Nat} {f : ι → Run T α} {g : α → List Ptr} {e : ι → (Ptr → T) → List T} {safe : Prop}
    (l : List ι) (h : ∀ i ∈ l, ∀ lo, base ≤ lo → ∃ hi x ops, Em N (f i) lo hi x ops ∧ Vals base lo hi ops (g x) (e i) safe) :
    ∀ lo, base ≤ lo → ∃ hi xs ops, Em N (Run.collect l f) lo hi xs ops ∧ Vals base lo hi ops (xs.flatMap g) (fun v => l.flatMap fun i => e i v) safe := by
  induction l with
  | nil => exact fun lo hb => ⟨lo, [], [], Em.pure [] lo, le_refl _, by simp, by simp, by simp, fun v => rfl, fun _ _ _ => rfl⟩
  | cons i l ih =>
    intro lo hb
    obtain ⟨mid, x, o1, m1, V1⟩ := h i (by simp) lo hb
    have l1 := V1.le
    obtain ⟨hi, xs, o2, m2, V2⟩ := ih (fun j hj => h j (by simp [hj])) mid (by omega)
    have l2 := V2.le
    refine ⟨hi, x :: xs, o1 ++ o2, ?_, ⟨by omega, fun q hq => ?_, fun hs o ho => ?_, fun p hp => ?_, fun v => ?_, fun v v' hv => ?_⟩⟩
    · have := Em.bind (f := fun as => (Pure.pure (x :: as) : Run T (List α))) m2 (Em.pure (x :: xs) hi)
      rw [List.append_nil] at this
      exact Em.bind m1 this
    · rw [dsts_append, List.mem_append] at hq
      rcases hq with hq | hq
      · have := V1.dst q hq; omega
      · have := V2.dst q hq; omega
    · rcases List.mem_append.1 ho with ho | ho
      · exact V1.fine hs o ho
      · exact V2.fine hs o ho
    · rw [List.flatMap_cons, List.mem_append] at hp
      rcases hp with hp | hp
      · have := V1.rng p hp; omega
      · exact V2.rng p hp
    · rw [List.flatMap_cons, List.flatMap_cons, List.map_append, execV_append, V2.val]
      congr 1
      · rw [← V1.val v]
        refine List.map_congr_left fun p hp => execV_frame fun hd => ?_
        have := V1.rng p hp
        have := V2.dst p hd
        omega
      · exact V2.loc _ _ fun q hq => execV_frame fun hd => by have := V1.dst q hd; omega
    · rw [List.flatMap_cons, List.flatMap_cons, V1.loc v v' hv]
      exact congrArg _ (V2.loc v v' hv)

/-- one scalar each -/
theorem Vals.collect1 {ι : Type} {N : World T} {base : Nat} {f : ι → Run T Ptr} {e : ι → (Ptr → T) → T} {safe : Prop}
    (l : List ι) (h : ∀ i ∈ l, ∀ lo, base ≤ lo → ∃ hi x ops, Em N (f i) lo hi x ops ∧ Vals base lo hi ops [x] (fun v => [e i v]) safe)
    (lo : Nat) (hb : base ≤ lo) :
    ∃ hi xs ops, Em N (Run.collect l f) lo hi xs ops ∧ Vals base lo hi ops xs (fun v => l.map fun i => e i v) safe := by
  obtain ⟨hi, xs, ops, m, V⟩ := Vals.collect (g := fun p => [p]) l h lo hb
  refine ⟨hi, xs, ops, m, ?_⟩
  have e1 : xs.flatMap (fun p => [p]) = xs := by simp
  rw [e1] at V
  have e2 : (fun v => l.flatMap fun i => [e i v]) = fun v : Ptr → T => l.map fun i => e i v := by
    funext v; exact List.flatMap_pure_eq_map _ _
  rw [e2] at V
  exact V

/-- the value at a scalar of the list -/
theorem Vals.get {base lo hi : Nat} {ops : List (Op T)} {p : Ptr} {e : (Ptr → T) → T} {safe : Prop}
    (V : Vals base lo hi ops [p] (fun v => [e v]) safe) (v : Ptr → T) : execV ops v p = e v := by
  simpa using V.val v

/-- `ops` changes the scalars below `base` from `v` to `F v`, writing only those in `W` and new ones -/
structure Effect (base lo hi : Nat) (W : Ptr → Prop) (ops : List (Op T)) (F : (Ptr → T) → Ptr → T) (safe : Prop) : Prop where
  le : lo ≤ hi
  dst : ∀ q ∈ dsts ops, (lo ≤ q ∧ q < hi) ∨ W q
  fine : safe → ∀ o ∈ ops, Fine o
  eff : ∀ v q, q < base → execV ops v q = F v q
  loc : ∀ v v', (∀ q < base, v q = v' q) → ∀ q < base, F v q = F v' q

theorem Effect.each {ι : Type} {N : World T} {base : Nat} {W : Ptr → Prop} {f : ι → Run T Unit} {F : ι → (Ptr → T) → Ptr → T} {safe : Prop}
    (l : List ι) (h : ∀ i ∈ l, ∀ lo, base ≤ lo → ∃ hi ops, Em N (f i) lo hi () ops ∧ Effect base lo hi W ops (F i) safe) :
    ∀ lo, base ≤ lo → ∃ hi ops, Em N (Run.each l f) lo hi () ops ∧ Effect base lo hi W ops (fun v => l.foldl (fun v i => F i v) v) safe := by
  induction l with
  | nil => exact fun lo hb => ⟨lo, [], Em.pure () lo, le_refl _, by simp, by simp, fun _ _ _ => rfl, fun _ _ h => h⟩
  | cons i l ih =>
    intro lo hb
    obtain ⟨mid, o1, m1, V1⟩ := h i (by simp) lo hb
    have l1 := V1.le
    obtain ⟨hi, o2, m2, V2⟩ := ih (fun j hj => h j (by simp [hj])) mid (by omega)
    have l2 := V2.le
    refine ⟨hi, o1 ++ o2, Em.bind m1 m2, ⟨by omega, fun q hq => ?_, fun hs o ho => ?_, fun v q hq => ?_, fun v v' hv q hq => ?_⟩⟩
    · rw [dsts_append, List.mem_append] at hq
      rcases hq with hq | hq
      · rcases V1.dst q hq with h | h
        · left; omega
        · exact Or.inr h
      · rcases V2.dst q hq with h | h
        · left; omega
        · exact Or.inr h
    · rcases List.mem_append.1 ho with ho | ho
      · exact V1.fine hs o ho
      · exact V2.fine hs o ho
    · rw [execV_append, V2.eff _ q hq, List.foldl_cons]
      exact V2.loc _ _ (fun q hq => V1.eff v q hq) q hq
    · rw [List.foldl_cons, List.foldl_cons]
      exact V2.loc _ _ (V1.loc v v' hv) q hq

/-! ### what such loops compute -/

/-- every iteration changes its own scalars, which no other iteration touches -/
theorem foldl_own {ι : Type} {l : List ι} {F : ι → (Ptr → T) → Ptr → T} {t : ι → Ptr → Prop}
    (hF : ∀ i ∈ l, ∀ v q, ¬ t i q → F i v q = v q) (hp : l.Pairwise fun i j => ∀ q, t i q → ¬ t j q)
    (hl : ∀ i ∈ l, ∀ v v', (∀ q, (∀ j ∈ l, t j q → t i q) → v q = v' q) → ∀ q, t i q → F i v q = F i v' q) (v : Ptr → T) :
    (∀ q, (∀ i ∈ l, ¬ t i q) → l.foldl (fun v i => F i v) v q = v q) ∧
    ∀ i ∈ l, ∀ q, t i q → l.foldl (fun v i => F i v) v q = F i v q := by
  have key : ∀ (l' : List ι), (∀ i ∈ l', i ∈ l) → l'.Pairwise (fun i j => ∀ q, t i q → ¬ t j q) → ∀ v : Ptr → T,
      (∀ q, (∀ i ∈ l', ¬ t i q) → l'.foldl (fun v i => F i v) v q = v q) ∧
      ∀ i ∈ l', ∀ q, t i q → l'.foldl (fun v i => F i v) v q = F i v q := by
    intro l'
    induction l' with
    | nil => intro _ _ v; exact ⟨fun _ _ => rfl, by simp⟩
    | cons a l' ih =>
      intro hm hp v
      obtain ⟨hp1, hp2⟩ := List.pairwise_cons.1 hp
      obtain ⟨k1, k2⟩ := ih (fun i hi => hm i (by simp [hi])) hp2 (F a v)
      refine ⟨fun q hq => ?_, fun i hi q ht => ?_⟩
      · rw [List.foldl_cons, k1 q fun i hi => hq i (by simp [hi]), hF a (hm a (by simp)) v q (hq a (by simp))]
      · rw [List.foldl_cons]
        rcases List.mem_cons.1 hi with rfl | hi
        · exact k1 q fun j hj htj => hp1 j hj q ht htj
        · rw [k2 i hi q ht]
          refine hl i (hm i (by simp [hi])) _ _ (fun q' hq' => ?_) q ht
          by_cases ha : t a q'
          · exact absurd (hq' a (hm a (by simp)) ha) (hp1 i hi q' ha)
          · exact hF a (hm a (by simp)) v q' ha
  exact key l (fun _ h => h) hp v

/-- every iteration adds to one scalar -/
theorem foldl_add {ι : Type} (c : ι → Ptr) (e : ι → (Ptr → T) → T) (q : Ptr) : ∀ (l : List ι) (v : Ptr → T),
    (∀ i ∈ l, ∀ v v' : Ptr → T, (∀ q, (∀ j ∈ l, q ≠ c j) → v q = v' q) → e i v = e i v') →
    l.foldl (fun v i => Function.update v (c i) (add (v (c i)) (e i v))) v q =
      (l.filter fun i => c i = q).foldl (fun s i => add s (e i v)) (v q) := by
  suffices H : ∀ (l l' : List ι) (v v0 : Ptr → T), (∀ i ∈ l, ∀ v v' : Ptr → T, (∀ q, (∀ j ∈ l', q ≠ c j) → v q = v' q) → e i v = e i v') →
      (∀ i ∈ l, i ∈ l') → (∀ q, (∀ j ∈ l', q ≠ c j) → v q = v0 q) →
      l.foldl (fun v i => Function.update v (c i) (add (v (c i)) (e i v))) v q =
      (l.filter fun i => c i = q).foldl (fun s i => add s (e i v0)) (v q) from
    fun l v h => H l l v v h (fun _ h => h) fun _ _ => rfl
  intro l l'
  induction l with
  | nil => intro v v0 _ _ _; rfl
  | cons i l ih =>
    intro v v0 he hm hv
    rw [List.foldl_cons, ih _ v0 (fun j hj => he j (by simp [hj])) (fun j hj => hm j (by simp [hj])) ?_]
    · by_cases h : c i = q
      · subst h
        rw [List.filter_cons_of_pos (by simp), List.foldl_cons, Function.update_self, he i (by simp) v v0 hv]
      · rw [List.filter_cons_of_neg (by simpa using h), Function.update_of_ne (fun e => h e.symm)]
    · intro q' hq'
      rw [Function.update_of_ne (hq' i (hm i (by simp)))]
      exact hv q' hq'

theorem foldl_range_allIdx {α : Type} (n : Nat) (s : List Nat) (f : Nat → α → α) (g : α → List Nat → α) (a : α)
    (h : ∀ i < n, ∀ a, f i a = (allIdx s).foldl (fun a k => g a (i :: k)) a) :
    (List.range n).foldl (fun a i => f i a) a = (allIdx (n :: s)).foldl g a := by
  simp only [allIdx, List.foldl_flatMap, List.foldl_map]
  exact List.foldl_ext _ _ _ fun a i hi => h i (List.mem_range.1 hi) a

end Godeep
