import Verif.Lemmas.Eff
import Verif.Lemmas.FFPool
/-
  Nested loops of emitted operations.
-/
set_option linter.unusedSectionVars false

namespace Godeep
open Spec GoNum

variable {T : Type} {α β : Type} [GoNum T]

/-! ### loops over indices -/

theorem Effect.congr {base lo hi : Nat} {W : Ptr → Prop} {ops : List (Op T)} {F G : (Ptr → T) → Ptr → T} {safe : Prop}
    (E : Effect base lo hi W ops F safe) (h : ∀ v, F v = G v) : Effect base lo hi W ops G safe := by
  have : F = G := funext h
  rw [← this]; exact E

theorem Effect.one {base lo hi : Nat} {W : Ptr → Prop} {ops : List (Op T)} {F : (Ptr → T) → Ptr → T} {G : List Nat → (Ptr → T) → Ptr → T} {safe : Prop}
    (E : Effect base lo hi W ops F safe) (h : ∀ v, F v = G [] v) :
    Effect base lo hi W ops (fun v => (allIdx []).foldl (fun v k => G k v) v) safe := E.congr fun v => by simp [allIdx, h]

theorem Effect.range {N : World T} {base n : Nat} {s : List Nat} {W : Ptr → Prop} {f : Nat → Run T Unit} {F : List Nat → (Ptr → T) → Ptr → T}
    {safe : Prop} (h : ∀ i < n, ∀ lo, base ≤ lo → ∃ hi ops, Em N (f i) lo hi () ops ∧
      Effect base lo hi W ops (fun v => (allIdx s).foldl (fun v k => F (i :: k) v) v) safe) (lo : Nat) (hb : base ≤ lo) :
    ∃ hi ops, Em N (Run.each (List.range n) f) lo hi () ops ∧
      Effect base lo hi W ops (fun v => (allIdx (n :: s)).foldl (fun v k => F k v) v) safe := by
  obtain ⟨hi, ops, m, E⟩ := Effect.each (F := fun i v => (allIdx s).foldl (fun v k => F (i :: k) v) v) (List.range n)
    (fun i hi => h i (List.mem_range.1 hi)) lo hb
  exact ⟨hi, ops, m, E.congr fun v => foldl_range_allIdx n s _ _ v fun _ _ _ => rfl⟩

theorem foldl_filter_skip {ι α : Type} (l : List ι) (p : ι → Bool) (F : ι → α → α) (v : α) (h : ∀ i ∈ l, p i = false → ∀ v, F i v = v) :
    (l.filter p).foldl (fun v i => F i v) v = l.foldl (fun v i => F i v) v := by
  induction l generalizing v with
  | nil => rfl
  | cons a l ih =>
    have ih' := fun v => ih v fun i hi => h i (by simp [hi])
    cases ha : p a with
    | true => rw [List.filter_cons_of_pos (by simpa using ha), List.foldl_cons, List.foldl_cons, ih']
    | false => rw [List.filter_cons_of_neg (by simp [ha]), List.foldl_cons, h a (by simp) ha, ih']

theorem foldl_skip {ι α : Type} (l : List ι) (F : ι → α → α) (v : α) (h : ∀ i ∈ l, ∀ v, F i v = v) : l.foldl (fun v i => F i v) v = v := by
  induction l generalizing v with
  | nil => rfl
  | cons a l ih => rw [List.foldl_cons, h a (by simp), ih _ fun i hi => h i (by simp [hi])]

theorem Effect.filter {N : World T} {base n : Nat} {s : List Nat} {p : Nat → Bool} {W : Ptr → Prop} {f : Nat → Run T Unit}
    {F : List Nat → (Ptr → T) → Ptr → T} {safe : Prop} (hF : ∀ i, p i = false → ∀ k v, F (i :: k) v = v)
    (h : ∀ i < n, p i = true → ∀ lo, base ≤ lo → ∃ hi ops, Em N (f i) lo hi () ops ∧
      Effect base lo hi W ops (fun v => (allIdx s).foldl (fun v k => F (i :: k) v) v) safe) (lo : Nat) (hb : base ≤ lo) :
    ∃ hi ops, Em N (Run.each ((List.range n).filter p) f) lo hi () ops ∧
      Effect base lo hi W ops (fun v => (allIdx (n :: s)).foldl (fun v k => F k v) v) safe := by
  obtain ⟨hi, ops, m, E⟩ := Effect.each (F := fun i v => (allIdx s).foldl (fun v k => F (i :: k) v) v) ((List.range n).filter p)
    (fun i hi => h i (List.mem_range.1 (List.mem_filter.1 hi).1) (List.mem_filter.1 hi).2) lo hb
  refine ⟨hi, ops, m, E.congr fun v => ?_⟩
  rw [foldl_filter_skip _ _ (fun i v => (allIdx s).foldl (fun v k => F (i :: k) v) v) v fun i _ hi v => ?_]
  · exact foldl_range_allIdx n s _ _ v fun _ _ _ => rfl
  · exact foldl_skip _ (fun k v => F (i :: k) v) v fun k _ v => hF i hi k v

theorem Vals.congr {base lo hi : Nat} {ops : List (Op T)} {ps : List Ptr} {e e' : (Ptr → T) → List T} {safe : Prop}
    (V : Vals base lo hi ops ps e safe) (h : ∀ v, e v = e' v) : Vals base lo hi ops ps e' safe := by
  have : e = e' := funext h
  rw [← this]; exact V

theorem Vals.range {N : World T} {base n : Nat} {s : List Nat} {f : Nat → Run T α} {g : α → List Ptr} {e : List Nat → (Ptr → T) → T} {safe : Prop}
    (h : ∀ i < n, ∀ lo, base ≤ lo → ∃ hi x ops, Em N (f i) lo hi x ops ∧
      Vals base lo hi ops (g x) (fun v => (allIdx s).map fun k => e (i :: k) v) safe) (lo : Nat) (hb : base ≤ lo) :
    ∃ hi xs ops, Em N (Run.collect (List.range n) f) lo hi xs ops ∧
      Vals base lo hi ops (xs.flatMap g) (fun v => (allIdx (n :: s)).map fun k => e k v) safe := by
  obtain ⟨hi, xs, ops, m, V⟩ := Vals.collect (e := fun i v => (allIdx s).map fun k => e (i :: k) v) (List.range n)
    (fun i hi => h i (List.mem_range.1 hi)) lo hb
  refine ⟨hi, xs, ops, m, V.congr fun v => ?_⟩
  simp only [allIdx, List.map_flatMap, List.map_map]
  rfl

/-- the innermost loop of `Vals.range` -/
theorem Vals.one {base lo hi : Nat} {ops : List (Op T)} {p : Ptr} {e : (Ptr → T) → T} {e' : List Nat → (Ptr → T) → T} {safe : Prop}
    (V : Vals base lo hi ops [p] (fun v => [e v]) safe) (h : ∀ v, e v = e' [] v) :
    Vals base lo hi ops [p] (fun v => (allIdx []).map fun k => e' k v) safe := V.congr fun v => by simp [allIdx, h]

/-! ### assignments -/

/-- new scalars are computed, then one that is there already is assigned -/
theorem Effect.asg {base lo hi : Nat} {W : Ptr → Prop} {ops : List (Op T)} {p : Ptr} {r : Rhs T} {E : (Ptr → T) → T} {safe : Prop}
    (le : lo ≤ hi) (hb : base ≤ lo) (dst : ∀ q ∈ dsts ops, lo ≤ q ∧ q < hi) (fine : safe → ∀ o ∈ ops, Fine o) (fr : safe → Fine (.asg p r))
    (hp : W p) (hr : ∀ v, r.ev (execV ops v) = E v) (loc : ∀ v v', (∀ q < base, v q = v' q) → E v = E v') :
    Effect base lo hi W (ops ++ [.asg p r]) (fun v => Function.update v p (E v)) safe := by
  refine ⟨le, fun q hq => ?_, fun hs o ho => ?_, fun v q hq => ?_, fun v v' hv q hq => ?_⟩
  · rw [dsts_append, List.mem_append] at hq
    rcases hq with hq | hq
    · exact Or.inl (dst q hq)
    · simp only [dsts_asg, dsts_nil, List.mem_singleton] at hq
      exact Or.inr (hq ▸ hp)
  · rcases List.mem_append.1 ho with ho | ho
    · exact fine hs o ho
    · rw [List.mem_singleton] at ho; subst ho; exact fr hs
  · rw [execV_append, execV_asg, execV_nil, hr, Function.update_apply, Function.update_apply, execV_frame fun hd => by have := dst q hd; omega]
  · simp only [Function.update_apply, loc v v' hv, hv q hq]

/-- every iteration assigns its own element of a tensor -/
theorem foldl_cells {hp : Heap T} {m : Mat} (g : GoodMat hp m) (nd : m.ops.Nodup) {E : List Nat → (Ptr → T) → T}
    (loc : ∀ k, InRange m.shape k → ∀ v v' : Ptr → T, (∀ q, q ∉ m.ops ∨ q = cell m k → v q = v' q) → E k v = E k v') (v : Ptr → T) :
    (∀ q, q ∉ m.ops → (allIdx m.shape).foldl (fun v k => Function.update v (cell m k) (E k v)) v q = v q) ∧
    ∀ k, InRange m.shape k → (allIdx m.shape).foldl (fun v k => Function.update v (cell m k) (E k v)) v (cell m k) = E k v := by
  obtain ⟨h1, h2⟩ := foldl_own (l := allIdx m.shape) (F := fun k v => Function.update v (cell m k) (E k v)) (t := fun k q => q = cell m k)
    (fun k _ v q hq => Function.update_of_ne hq _ _)
    (by
      have : (allIdx m.shape).Pairwise fun i j => i ≠ j := nodup_allIdx _
      refine this.imp_of_mem fun hi hj hne q h1 h2 => hne ?_
      exact cell_inj g nd (mem_allIdx.1 hi) (mem_allIdx.1 hj) (h1.symm.trans h2))
    (fun k hk v v' hv q hq => by
      subst hq
      rw [Function.update_self, Function.update_self]
      refine loc k (mem_allIdx.1 hk) v v' fun q hq => hv q fun j hj e => ?_
      rcases hq with hq | hq
      · exact absurd (e ▸ cell_mem g (mem_allIdx.1 hj)) hq
      · exact hq) v
  refine ⟨fun q hq => h1 q fun k hk e => hq (e ▸ cell_mem g (mem_allIdx.1 hk)), fun k hk => ?_⟩
  rw [h2 k (mem_allIdx.2 hk) _ rfl, Function.update_self]

end Godeep
