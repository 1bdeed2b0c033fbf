import Verif.Model.GraphOps
import Verif.Lemmas.Total
/-
  C30: extending and copying graphs.
-/
set_option linter.unusedSectionVars false

namespace Godeep.Props
open Godeep GraphMem

variable {α : Type}

/-- What a history of graph actions means when every graph is simply a list of operations. -/
def listStep (v : Nat → List α) : Act α → Nat → List α
  | .new g xs => fun k => if k = g then xs else v k
  | .empty g => fun k => if k = g then [] else v k
  | .copy g f _ => fun k => if k = g then v f else v k
  | .add g f _ => fun k => if k = g then v g ++ v f else v k
  | .push g xs _ => fun k => if k = g then v g ++ xs else v k

def listSteps (v : Nat → List α) (acts : List (Act α)) : Nat → List α := acts.foldl listStep v

/-- the graph an action assigns to -/
def target : Act α → Nat
  | .new g _ => g
  | .empty g => g
  | .copy g _ _ => g
  | .add g _ _ => g
  | .push g _ _ => g

/-- no two graphs share an array they could write to -/
structure Apart (m : GraphMem α) : Prop where
  le : ∀ g, (m.graph g).len ≤ (m.graph g).cap
  old : ∀ g, (m.graph g).arr < m.next
  sep : ∀ g k, g ≠ k → (m.graph g).arr = (m.graph k).arr → (m.graph g).cap = 0

theorem init_apart (d : α) : Apart (init d) :=
  ⟨fun _ => le_refl 0, fun _ => Nat.one_pos, fun _ _ _ _ => rfl⟩

theorem elems_write {m : GraphMem α} {a i : Nat} {xs : List α} {s : OpSlice}
    (h : s.arr ≠ a ∨ s.len ≤ i) : (m.write a i xs).elems s = m.elems s := by
  unfold elems
  refine List.map_congr_left fun k hk => ?_
  have := List.mem_range.1 hk
  simp only [write]
  rw [if_neg]
  rintro ⟨h1, h2, _⟩
  rcases h with h | h
  · exact h h1
  · omega

theorem elems_written {m : GraphMem α} {a i : Nat} {xs : List α} (cap : Nat) :
    (m.write a i xs).elems ⟨a, i + xs.length, cap⟩ = m.elems ⟨a, i, cap⟩ ++ xs := by
  unfold elems
  apply List.ext_getElem
  · simp
  · intro k h1 h2
    simp only [List.length_map, List.length_range] at h1
    simp only [List.getElem_map, List.getElem_range, write, true_and]
    by_cases hk : k < i
    · rw [if_neg (by omega), List.getElem_append_left (by simpa using hk)]
      simp
    · have h3 : i ≤ k := by omega
      rw [if_pos ⟨h3, h1⟩, List.getElem_append_right (by simpa using h3)]
      simp [List.getD, show k - i < xs.length by omega]

/-- `append` to the slice of a graph and assignment to that graph -/
theorem append_ops {m : GraphMem α} (A : Apart m) (g : Nat) (s : OpSlice) (xs : List α) (spare : Nat)
    (hle : s.len ≤ s.cap) (hold : s.arr < m.next)
    (hsep : ∀ k, k ≠ g → s.arr = (m.graph k).arr → s.cap = 0) (hsep' : ∀ k, k ≠ g → s.arr = (m.graph k).arr → (m.graph k).cap = 0) :
    Apart ((m.append s xs spare).1.setGraph g (m.append s xs spare).2) ∧
      ∀ k, ((m.append s xs spare).1.setGraph g (m.append s xs spare).2).ops k =
        if k = g then m.elems s ++ xs else m.ops k := by
  have hgr : ∀ {n : GraphMem α} {r : OpSlice} (k), (n.setGraph g r).graph k = if k = g then r else n.graph k :=
    fun k => rfl
  have hel : ∀ {n : GraphMem α} {r s : OpSlice}, (n.setGraph g r).elems s = n.elems s := rfl
  by_cases hfit : s.len + xs.length ≤ s.cap
  · have e : m.append s xs spare = (m.write s.arr s.len xs, ⟨s.arr, s.len + xs.length, s.cap⟩) := if_pos hfit
    rw [e]
    constructor
    · refine ⟨fun k => ?_, fun k => ?_, fun j k hjk => ?_⟩
      · rw [hgr]; split
        · exact hfit
        · exact A.le k
      · rw [hgr]; split
        · exact hold
        · exact A.old k
      · rw [hgr, hgr]
        split
        · rename_i hj
          rw [if_neg (fun h => hjk (hj.trans h.symm))]
          exact hsep k (fun h => hjk (hj.trans h.symm))
        · rename_i hj
          split
          · intro h
            exact hsep' j hj h.symm
          · exact A.sep j k hjk
    · intro k
      unfold ops
      rw [hel, hgr]
      split
      · exact elems_written s.cap
      · rename_i hk
        refine elems_write ?_
        by_cases ha : (m.graph k).arr = s.arr
        · right
          have h1 := hsep' k hk ha.symm
          have h2 := A.le k
          show (m.graph k).len ≤ s.len
          omega
        · exact Or.inl ha
  · have e : m.append s xs spare = ({ m.write m.next 0 (m.elems s ++ xs) with next := m.next + 1 },
        ⟨m.next, (m.elems s ++ xs).length, (m.elems s ++ xs).length + spare⟩) := if_neg hfit
    rw [e]
    constructor
    · refine ⟨fun k => ?_, fun k => ?_, fun j k hjk => ?_⟩
      · rw [hgr]; split
        · exact Nat.le_add_right _ _
        · exact A.le k
      · rw [hgr]; split
        · exact Nat.lt_succ_self _
        · exact lt_trans (A.old k) (Nat.lt_succ_self _)
      · rw [hgr, hgr]
        split
        · rename_i hj
          rw [if_neg (fun h => hjk (hj.trans h.symm))]
          intro h
          exact absurd h (Nat.ne_of_gt (A.old k))
        · split
          · intro h
            exact absurd h (Nat.ne_of_lt (A.old j))
          · exact A.sep j k hjk
    · intro k
      unfold ops
      rw [hel, hgr]
      split
      · have := elems_written (m := m) (a := m.next) (i := 0) (xs := m.elems s ++ xs)
          ((m.elems s ++ xs).length + spare)
        rw [Nat.zero_add] at this
        exact this
      · exact elems_write (Or.inl (Nat.ne_of_lt (A.old k)))

theorem bump_apart {m : GraphMem α} (A : Apart m) : Apart { m with next := m.next + 1 } :=
  ⟨A.le, fun g => lt_trans (A.old g) (Nat.lt_succ_self _), A.sep⟩

theorem step_ops {m : GraphMem α} (A : Apart m) (a : Act α) :
    Apart (m.step a) ∧ (m.step a).ops = listStep m.ops a := by
  have hown : ∀ g, ∀ k, k ≠ g → (m.graph g).arr = (m.graph k).arr → (m.graph g).cap = 0 :=
    fun g k hk h => A.sep g k (Ne.symm hk) h
  have hown' : ∀ g, ∀ k, k ≠ g → (m.graph g).arr = (m.graph k).arr → (m.graph k).cap = 0 :=
    fun g k hk h => A.sep k g hk h.symm
  cases a with
  | new g xs =>
    refine ⟨⟨fun k => ?_, fun k => ?_, fun j k hjk => ?_⟩, funext fun k => ?_⟩
    · simp only [step, setGraph]; split
      · exact le_refl _
      · exact A.le k
    · simp only [step, setGraph]; split
      · exact Nat.lt_succ_self _
      · exact lt_trans (A.old k) (Nat.lt_succ_self _)
    · simp only [step, setGraph]
      split
      · rename_i hj
        rw [if_neg (fun h => hjk (hj.trans h.symm))]
        intro h
        exact absurd h (Nat.ne_of_gt (A.old k))
      · split
        · intro h
          exact absurd h (Nat.ne_of_lt (A.old j))
        · exact A.sep j k hjk
    · simp only [step, setGraph, ops, listStep]
      split
      · have := elems_written (m := m) (a := m.next) (i := 0) (xs := xs) xs.length
        rw [Nat.zero_add] at this
        exact this
      · exact elems_write (m := m) (Or.inl (Nat.ne_of_lt (A.old k)))
  | empty g =>
    refine ⟨⟨fun k => ?_, fun k => ?_, fun j k hjk => ?_⟩, funext fun k => ?_⟩
    · simp only [step, setGraph]; split
      · exact le_refl _
      · exact A.le k
    · simp only [step, setGraph]; split
      · exact Nat.lt_succ_self _
      · exact lt_trans (A.old k) (Nat.lt_succ_self _)
    · simp only [step, setGraph]
      split
      · exact fun _ => rfl
      · split
        · intro h
          exact absurd h (Nat.ne_of_lt (A.old j))
        · exact A.sep j k hjk
    · simp only [step, setGraph, ops, listStep]
      split
      · rfl
      · rfl
  | copy g f spare =>
    obtain ⟨h1, h2⟩ := append_ops (bump_apart A) g ⟨m.next, 0, 0⟩ (m.ops f) spare (le_refl _)
      (Nat.lt_succ_self _) (fun _ _ _ => rfl) (fun k _ h => absurd h (Nat.ne_of_gt (A.old k)))
    refine ⟨h1, funext fun k => (h2 k).trans ?_⟩
    simp only [listStep]
    split
    · simp [elems]
    · rfl
  | add g f spare =>
    obtain ⟨h1, h2⟩ := append_ops A g (m.graph g) (m.ops f) spare (A.le g) (A.old g) (hown g) (hown' g)
    exact ⟨h1, funext h2⟩
  | push g xs spare =>
    obtain ⟨h1, h2⟩ := append_ops A g (m.graph g) xs spare (A.le g) (A.old g) (hown g) (hown' g)
    exact ⟨h1, funext h2⟩

theorem steps_ops : ∀ (acts : List (Act α)) (m : GraphMem α), Apart m →
    Apart (m.steps acts) ∧ (m.steps acts).ops = listSteps m.ops acts := by
  intro acts
  induction acts with
  | nil => intro m A; exact ⟨A, rfl⟩
  | cons a acts ih =>
    intro m A
    obtain ⟨h1, h2⟩ := step_ops A a
    obtain ⟨h3, h4⟩ := ih _ h1
    exact ⟨h3, by rw [show m.steps (a :: acts) = (m.step a).steps acts from rfl, h4, h2]; rfl⟩

/-- After any history of creating, copying, extending graphs, whatever capacity `append` reserves,
every graph is the list of operations it would be if graphs were plain lists: no extension ever
changes another graph. -/
theorem C30_graphs_are_lists (d : α) (acts : List (Act α)) :
    ((init d).steps acts).ops = listSteps (fun _ => []) acts :=
  (steps_ops acts (init d) (init_apart d)).2

/-- Copy a graph, then do anything that does not assign to the original: the original executes
exactly as before the copy, on every heap. -/
theorem C30_copy_is_independent {T : Type} [GoNum T] (d : Op T) (hist later : List (Act (Op T)))
    (g c spare : Nat) (hc : c ≠ g) (hl : ∀ a ∈ later, target a ≠ g) (h : Heap T) :
    exec (((init d).steps (hist ++ .copy c g spare :: later)).ops g) h =
      exec (((init d).steps hist).ops g) h := by
  have key : ∀ (l : List (Act (Op T))) (v : Nat → List (Op T)), (∀ a ∈ l, target a ≠ g) →
      listSteps v l g = v g := by
    intro l
    induction l with
    | nil => intro v _; rfl
    | cons a l ih =>
      intro v hv
      have h1 : target a ≠ g := hv a (by simp)
      rw [show listSteps v (a :: l) = listSteps (listStep v a) l from rfl, ih _ (fun b hb => hv b (by simp [hb]))]
      cases a <;> simp only [listStep, target] at h1 ⊢ <;> rw [if_neg (Ne.symm h1)]
  rw [C30_graphs_are_lists, C30_graphs_are_lists]
  congr 1
  unfold listSteps
  rw [List.foldl_append]
  exact key (.copy c g spare :: later) _ (fun a ha => by
    rcases List.mem_cons.1 ha with rfl | ha
    · exact hc
    · exact hl a ha)

/-- Executing a graph extended with another is executing the first and then the other. -/
theorem C30_add_is_sequence {T : Type} [GoNum T] (d : Op T) (hist : List (Act (Op T))) (g f spare : Nat) (h : Heap T) :
    exec (((init d).steps (hist ++ [.add g f spare])).ops g) h =
      (exec (((init d).steps hist).ops g) h).bind fun _ h' => exec (((init d).steps hist).ops f) h' := by
  rw [C30_graphs_are_lists, C30_graphs_are_lists, ← exec_append]
  congr 1
  simp [listSteps, List.foldl_append, listStep]

/-- a history with shared capacity: 1 is copied to 2 with room to spare, both are extended, and then
3 is copied from 2; the extensions do not meet -/
example : let m := (init (0 : Nat)).steps [.new 1 [5, 6], .copy 2 1 4, .push 2 [7] 0, .copy 3 2 4, .push 3 [8] 0, .push 1 [9] 3, .add 2 2 0]
    (m.ops 1, m.ops 2, m.ops 3) = ([5, 6, 9], [5, 6, 7, 5, 6, 7], [5, 6, 7, 8]) := by decide +kernel

end Godeep.Props
