import Verif.Lemmas.BranchBuild
/-
  The values of the layers of a graph, layer by layer.
-/
set_option linter.unusedSectionVars false

namespace Godeep
open Spec GoNum

variable {T : Type} [GoNum T]

theorem scan_prefix {α β : Type} (F : β → List α → α) (l : List β) (V : List α) :
    ∃ rest, l.foldl (fun vs n => vs ++ [F n vs]) V = V ++ rest ∧ rest.length = l.length := by
  induction l generalizing V with
  | nil => exact ⟨[], by simp, rfl⟩
  | cons n l ih =>
    obtain ⟨rest, e, hl⟩ := ih (V ++ [F n V])
    exact ⟨F n V :: rest, by rw [List.foldl_cons, e]; simp, by simp [hl]⟩

theorem scan_get {α β : Type} (F : β → List α → α) {l : List β} (a : α) {k : Nat} {n : β} (h : l[k]? = some n) :
    ∃ V rest, l.foldl (fun vs n => vs ++ [F n vs]) [a] = V ++ F n V :: rest ∧ V.length = k + 1 := by
  have hk := (List.getElem?_eq_some_iff.1 h).1
  have hs : l = l.take k ++ n :: l.drop (k + 1) := by
    conv_lhs => rw [← List.take_append_drop k l]
    rw [List.drop_eq_getElem_cons hk]
    rw [(List.getElem?_eq_some_iff.1 h).2]
  obtain ⟨r1, e1, l1⟩ := scan_prefix F (l.take k) [a]
  obtain ⟨r2, e2, l2⟩ := scan_prefix F (l.drop (k + 1)) ([a] ++ r1 ++ [F n ([a] ++ r1)])
  refine ⟨[a] ++ r1, r2, ?_, ?_⟩
  · rw [hs, List.foldl_append, e1, List.foldl_cons, e2]
    simp
  · simp [l1]; omega

/-- the weights and biases of layer number `k` -/
def gpar (pv : List (List (STensor T))) : Nat → List (STensor T)
  | 0 => []
  | k + 1 => pv.getD k []

/-- the shape of the output of layer number `k` -/
def gshape (ns : List (BNode T)) (s : List Nat) (k : Nat) : List Nat := (graphShapes ns s).getD k []

theorem getD_prefix {α : Type} {V rest : List α} {i : Nat} (d : α) (h : i < V.length) : (V ++ rest).getD i d = V.getD i d := by
  rw [List.getD_eq_getElem?_getD, List.getD_eq_getElem?_getD, List.getElem?_append_left h]

theorem getD_next {α : Type} {V rest : List α} {a d : α} {k : Nat} (h : V.length = k) : (V ++ a :: rest).getD k d = a := by
  rw [List.getD_eq_getElem?_getD, List.getElem?_append_right (by omega), h]
  simp

theorem graphFn_zero (ns : List (BNode T)) (pv : List (List (STensor T))) (x : STensor T) : graphFn ns 0 pv x = x := by
  obtain ⟨rest, e, _⟩ := scan_prefix (fun (n : BNode T × List (STensor T)) vs => n.1.fn n.2 fun i => vs.getD i x) (ns.zip pv) [x]
  unfold graphFn graphVals
  rw [e]; rfl

theorem gshape_zero (ns : List (BNode T)) (s : List Nat) : gshape ns s 0 = s := by
  obtain ⟨rest, e, _⟩ := scan_prefix (fun (n : BNode T) ss => n.outShape fun i => ss.getD i []) ns [s]
  unfold gshape graphShapes
  rw [e]; rfl

theorem fn_congr {n : BNode T} {ps : List (STensor T)} {v v' : Nat → STensor T} (h : ∀ p ∈ n.reads, v p = v' p) : n.fn ps v = n.fn ps v' := by
  cases n with
  | layer s p => simp only [BNode.fn, h p (by simp [BNode.reads])]
  | concat i j d => simp only [BNode.fn, h i (by simp [BNode.reads]), h j (by simp [BNode.reads])]

theorem outShape_congr {n : BNode T} {v v' : Nat → List Nat} (h : ∀ p ∈ n.reads, v p = v' p) : n.outShape v = n.outShape v' := by
  cases n with
  | layer s p => simp only [BNode.outShape, h p (by simp [BNode.reads])]
  | concat i j d => simp only [BNode.outShape, h i (by simp [BNode.reads]), h j (by simp [BNode.reads])]

theorem graphFn_succ {ns : List (BNode T)} {pv : List (List (STensor T))} {x : STensor T} {k : Nat} {n : BNode T} (h : ns[k]? = some n)
    (hr : ∀ p ∈ n.reads, p ≤ k) (hl : pv.length = ns.length) :
    graphFn ns (k + 1) pv x = n.fn (gpar pv (k + 1)) (fun i => graphFn ns i pv x) := by
  have hk := (List.getElem?_eq_some_iff.1 h).1
  have hz : (ns.zip pv)[k]? = some (n, pv.getD k []) := by
    rw [List.getElem?_zip_eq_some]
    refine ⟨h, ?_⟩
    rw [List.getD_eq_getElem?_getD, List.getElem?_eq_getElem (by omega)]
    rfl
  obtain ⟨V, rest, e, hV⟩ := scan_get (fun (n : BNode T × List (STensor T)) vs => n.1.fn n.2 fun i => vs.getD i x) x hz
  have e' : graphVals ns pv x = V ++ n.fn (pv.getD k []) (fun i => V.getD i x) :: rest := e
  unfold graphFn
  rw [e', getD_next hV]
  refine fn_congr fun p hp => ?_
  rw [getD_prefix x (by have := hr p hp; omega)]

theorem gshape_succ {ns : List (BNode T)} {s : List Nat} {k : Nat} {n : BNode T} (h : ns[k]? = some n)
    (hr : ∀ p ∈ n.reads, p ≤ k) : gshape ns s (k + 1) = n.outShape (gshape ns s) := by
  obtain ⟨V, rest, e, hV⟩ := scan_get (fun (n : BNode T) ss => n.outShape fun i => ss.getD i []) s h
  have e' : graphShapes ns s = V ++ n.outShape (fun i => V.getD i []) :: rest := e
  unfold gshape
  rw [e', getD_next hV]
  refine outShape_congr fun p hp => ?_
  rw [getD_prefix _ (by have := hr p hp; omega)]

end Godeep
