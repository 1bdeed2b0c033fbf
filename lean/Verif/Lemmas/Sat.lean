import Verif.Lemmas.Dense
/-
  Operation lists in which no scalar is written after it was read or written: what they compute can
  be read off the final heap.
-/
set_option linter.unusedSectionVars false

namespace Godeep
open Spec GoNum

variable {T : Type} [GoNum T]

/-- the later operation does not write what the earlier one writes or reads -/
def After (o o' : Op T) : Prop := ∀ q, o'.dst = some q → o.dst ≠ some q ∧ q ∉ o.reads

/-- no scalar is written after an operation that read or wrote it; an operation may read its own
destination -/
def SSA1 (ops : List (Op T)) : Prop := ops.Pairwise After

/-- every written scalar has the value of its right-hand side in the final heap `h'`, where the
scalar itself is taken with its value in the initial heap `h` -/
def Sat1 (ops : List (Op T)) (h h' : Heap T) : Prop :=
  ∀ p r, Op.asg p r ∈ ops → 0 < p ∧ r.eval (h'.put p (h.val p)) = .ok (h'.val p)

theorem SSA1.tail {o : Op T} {ops : List (Op T)} (h : SSA1 (o :: ops)) : SSA1 ops := (List.pairwise_cons.1 h).2

theorem exec_ssa1 : ∀ {ops : List (Op T)} {h h' : Heap T}, SSA1 ops → exec ops h = .ok () h' → Sat1 ops h h' := by
  intro ops
  induction ops with
  | nil => intro h h' _ _ p r hm; cases hm
  | cons o ops ih =>
    intro h h' hs he p r hm
    obtain ⟨h1, h2⟩ := List.pairwise_cons.1 hs
    cases o with
    | nop p' =>
      rcases List.mem_cons.1 hm with hm | hm
      · cases hm
      · exact ih h2 (by simpa [exec, Op.cal] using he) p r hm
    | asg p' r' =>
      obtain ⟨hp, v, hv, he⟩ := exec_cons_asg_ok.1 he
      have hni : ∀ q, q ∈ dsts ops → p' ≠ q ∧ q ∉ r'.reads := by
        intro q hq
        rw [mem_dsts] at hq
        obtain ⟨r1, hr1⟩ := hq
        obtain ⟨a, b⟩ := h1 _ hr1 q rfl
        exact ⟨fun e => a (by rw [e]; rfl), b⟩
      have hf := (exec_frame he).2
      rcases List.mem_cons.1 hm with hm | hm
      · cases hm
        have hpv : h'.val p = v := by
          rw [hf p (fun hq => (hni p hq).1 rfl), put_val, if_pos rfl]
        refine ⟨Nat.pos_of_ne_zero hp, ?_⟩
        rw [hpv, ← hv]
        apply eval_congr
        intro q hq
        rw [put_val]
        split_ifs with hqp
        · rw [hqp]
        · rw [hf q (fun hd => (hni q hd).2 hq), put_val, if_neg hqp]
      · obtain ⟨hp0, hs'⟩ := ih h2 he p r hm
        refine ⟨hp0, ?_⟩
        have : (h.put p' v).val p = h.val p := by
          rw [put_val, if_neg]
          intro e
          exact (hni p (mem_dsts.2 ⟨r, hm⟩)).1 e.symm
        rwa [this] at hs'

/-- the operations of a list are executed in one go whatever they are part of -/
theorem Sat1.sub {a b : List (Op T)} {h h' : Heap T} (hs : Sat1 b h h') (hab : ∀ o ∈ a, o ∈ b) : Sat1 a h h' :=
  fun p r hm => hs p r (hab _ hm)

theorem Sat1.left {a b : List (Op T)} {h h' : Heap T} (hs : Sat1 (a ++ b) h h') : Sat1 a h h' :=
  hs.sub fun _ ho => List.mem_append_left _ ho

theorem Sat1.right {a b : List (Op T)} {h h' : Heap T} (hs : Sat1 (a ++ b) h h') : Sat1 b h h' :=
  hs.sub fun _ ho => List.mem_append_right _ ho

/-- later changes outside the scalars that are read or written do not matter -/
theorem Sat1.congr {a : List (Op T)} {h h1 h' h1' : Heap T} (hs : Sat1 a h h')
    (h0 : ∀ q ∈ dsts a, h1.val q = h.val q)
    (h2 : ∀ q ∈ dsts a, h1'.val q = h'.val q) (h3 : ∀ o ∈ a, ∀ q ∈ o.reads, h1'.val q = h'.val q) : Sat1 a h1 h1' := by
  intro p r hm
  obtain ⟨hp, he⟩ := hs p r hm
  have hd : p ∈ dsts a := mem_dsts.2 ⟨r, hm⟩
  refine ⟨hp, ?_⟩
  rw [h2 p hd, ← he]
  apply eval_congr
  intro q hq
  rw [put_val, put_val]
  split_ifs
  · exact h0 p hd
  · exact h3 _ hm q hq

/-- reading off an operation that does not read its own destination -/
theorem Sat1.get {ops : List (Op T)} {h h' : Heap T} (hs : Sat1 ops h h') {p : Ptr} {r : Rhs T}
    (hm : Op.asg p r ∈ ops) (hn : p ∉ r.reads) : r.eval h' = .ok (h'.val p) := by
  rw [← (hs p r hm).2]
  apply eval_congr
  intro q hq
  have hqp : q ≠ p := fun e => hn (e ▸ hq)
  rw [put_val, if_neg hqp]

theorem Sat1.mul {ops : List (Op T)} {h h' : Heap T} (hs : Sat1 ops h h') {p a b : Ptr}
    (hm : Op.asg p (.mul a b) ∈ ops) (hn : p ≠ a ∧ p ≠ b) : h'.val p = GoNum.mul (h'.val a) (h'.val b) :=
  arith_eval (o := .mul) (hs.get hm (by simpa [Rhs.reads] using hn) :)

theorem Sat1.sub' {ops : List (Op T)} {h h' : Heap T} (hs : Sat1 ops h h') {p a b : Ptr}
    (hm : Op.asg p (.sub a b) ∈ ops) (hn : p ≠ a ∧ p ≠ b) : h'.val p = GoNum.sub (h'.val a) (h'.val b) :=
  arith_eval (o := .sub) (hs.get hm (by simpa [Rhs.reads] using hn) :)

/-- `p += a` -/
theorem Sat1.acc {ops : List (Op T)} {h h' : Heap T} (hs : Sat1 ops h h') {p a : Ptr}
    (hm : Op.asg p (.add p a) ∈ ops) (hn : p ≠ a) : h'.val p = GoNum.add (h.val p) (h'.val a) := by
  have := arith_eval (o := .add) (hs p _ hm).2
  rwa [put_val, if_pos rfl, put_val, if_neg (Ne.symm hn)] at this

theorem Sat1.sum {ops : List (Op T)} {h h' : Heap T} (hs : Sat1 ops h h') {p : Ptr} {args : List Ptr}
    (hm : Op.asg p (.sum args) ∈ ops) (hn : p ∉ args) : h'.val p = sum1 (args.map h'.val) :=
  sum_eval (hs.get hm hn)

theorem Sat1.func {ops : List (Op T)} {h h' : Heap T} (hs : Sat1 ops h h') {p a : Ptr} {f : T → T}
    (hm : Op.asg p (.func f a) ∈ ops) (hn : p ≠ a) : h'.val p = f (h'.val a) := by
  have := hs.get hm (by simp [Rhs.reads, hn])
  simp only [Rhs.eval] at this
  obtain ⟨x, hx, e⟩ := res_map_ok this
  rw [← e, (load_ok hx).2]

theorem Sat1.absv {ops : List (Op T)} {h h' : Heap T} (hs : Sat1 ops h h') {p a : Ptr}
    (hm : Op.asg p (.abs a) ∈ ops) (hn : p ≠ a) :
    h'.val p = if lt (h'.val a) zero then GoNum.neg (h'.val a) else h'.val a := by
  have := hs.get hm (by simp [Rhs.reads, hn])
  simp only [Rhs.eval] at this
  obtain ⟨x, hx, e⟩ := res_map_ok this
  rw [← e, (load_ok hx).2]

theorem Sat1.setv {ops : List (Op T)} {h h' : Heap T} (hs : Sat1 ops h h') {p a : Ptr}
    (hm : Op.asg p (.set a) ∈ ops) (hn : p ≠ a) : h'.val p = h'.val a := by
  have := hs.get hm (by simp [Rhs.reads, hn])
  exact (load_ok this).2

/-! ### single assignment of composed lists -/

theorem after_iff {o o' : Op T} : After o o' ↔ ∀ q ∈ dsts [o'], q ∉ dsts [o] ∧ q ∉ o.reads := by
  cases o' with
  | nop p => simp [After, Op.dst]
  | asg p r =>
    cases o with
    | nop p' => simp [After, Op.dst, Op.reads]
    | asg p' r' =>
      simp only [After, Op.dst, Op.reads, dsts_asg, dsts_nil, List.mem_singleton, Option.some.injEq, forall_eq, ne_eq, forall_eq']
      exact ⟨fun h => ⟨fun e => h.1 e.symm, h.2⟩, fun h => ⟨fun e => h.1 e.symm, h.2⟩⟩

theorem ssa1_append {a b : List (Op T)} (ha : SSA1 a) (hb : SSA1 b) (hd : ∀ q ∈ dsts b, q ∉ dsts a)
    (hr : ∀ q ∈ dsts b, ∀ o ∈ a, q ∉ o.reads) : SSA1 (a ++ b) := by
  refine List.pairwise_append.2 ⟨ha, hb, fun o ho o' ho' q hq => ?_⟩
  have hqb : q ∈ dsts b := by unfold dsts; exact List.mem_filterMap.2 ⟨o', ho', hq⟩
  exact ⟨fun e => hd q hqb (by unfold dsts; exact List.mem_filterMap.2 ⟨o, ho, e⟩), hr q hqb o ho⟩

theorem ssa1_flatMap {n : Nat} {g : Nat → List (Op T)} (hg : ∀ i, i < n → SSA1 (g i))
    (hd : ∀ i j, i < j → j < n → ∀ q ∈ dsts (g j), q ∉ dsts (g i) ∧ ∀ o ∈ g i, q ∉ o.reads) :
    SSA1 ((List.range n).flatMap g) := by
  induction n with
  | zero => exact List.Pairwise.nil
  | succ n ih =>
    rw [List.range_succ, List.flatMap_append]
    simp only [List.flatMap_cons, List.flatMap_nil, List.append_nil]
    refine ssa1_append (ih (fun i hi => hg i (by omega)) fun i j h1 h2 => hd i j h1 (by omega)) (hg n (by omega)) ?_ ?_
    · intro q hq hq'
      rw [dsts_flatMap] at hq'
      obtain ⟨i, hi, hq'⟩ := hq'
      exact (hd i n (List.mem_range.1 hi) (by omega) q hq).1 hq'
    · intro q hq o ho
      obtain ⟨i, hi, ho⟩ := List.mem_flatMap.1 ho
      exact (hd i n (List.mem_range.1 hi) (by omega) q hq).2 o ho

theorem ssa1_nil : SSA1 ([] : List (Op T)) := List.Pairwise.nil

theorem ssa1_one (o : Op T) : SSA1 [o] := List.pairwise_singleton _ _

theorem asgs_ssa1 {lo : Nat} {rs : List (Rhs T)} (hr : ∀ r ∈ rs, ∀ q ∈ r.reads, q < lo) : SSA1 (asgs lo rs) := by
  induction rs generalizing lo with
  | nil => exact ssa1_nil
  | cons r rs ih =>
    refine List.pairwise_cons.2 ⟨?_, ih fun r' h' q hq => Nat.lt_succ_of_lt (hr r' (by simp [h']) q hq)⟩
    intro o ho q hq
    have hq' : q ∈ dsts (asgs (lo + 1) rs) := List.mem_filterMap.2 ⟨o, ho, hq⟩
    rw [mem_dsts_asgs] at hq'
    refine ⟨?_, fun h => ?_⟩
    · simp only [Op.dst, ne_eq, Option.some.injEq]; omega
    · have := hr r (by simp) q h
      omega

end Godeep
