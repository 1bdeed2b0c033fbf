import Verif.Lemmas.Text
import Mathlib.Data.List.Basic
/-
  C81: the text of a tensor determines its shape and its elements as printed.
-/
namespace Godeep.Props
open Godeep Text

theorem shapeStr_inj {s t : List Nat} {r r' : List Char} (h : shapeStr s ++ r = shapeStr t ++ r') : s = t ∧ r = r' := by
  unfold shapeStr at h
  simp only [List.append_assoc, List.cons_append, List.nil_append, List.cons.injEq, true_and] at h
  obtain ⟨h1, h2⟩ := writeAll_inj dec_plain (Nat.zero_add _).symm (Nat.zero_add _).symm h
  exact ⟨List.map_injective_iff.2 (fun _ _ => dec_inj) h1, h2⟩

/-- C81 for shapes: different shapes have different texts -/
theorem C81_shapeStr {s t : List Nat} (h : shapeStr s = shapeStr t) : s = t :=
  (shapeStr_inj (r := []) (r' := []) (by rw [h])).1

/-- C81: tensors with the same text have the same shape, the same number of elements, and elements that are printed
the same way, one by one; here the text of an element is not empty and has no comma and no closing bracket
(as for every number type of Go) -/
theorem C81_matString {T : Type} (pr : T → List Char) (hpr : ∀ v, pr v ≠ [] ∧ ∀ c ∈ pr v, c ≠ ',' ∧ c ≠ ']')
    (m m' : Mat) (h h' : Heap T) (e : matString pr m h = matString pr m' h') :
    m.shape = m'.shape ∧ m.ops.length = m'.ops.length ∧ ∀ k, k < m.ops.length → (m.ops[k]?.map fun p => pr (h.val p)) = m'.ops[k]?.map fun p => pr (h'.val p) := by
  unfold matString at e
  simp only [List.append_assoc] at e
  have e1 := List.append_cancel_left e
  obtain ⟨-, -, e2⟩ := split_mark (dec_plain.unmarked _) (dec_plain.unmarked _) (Or.inl rfl) (Or.inl rfl) e1
  have e3 := List.append_cancel_left (as := " len: ".toList) e2
  obtain ⟨-, -, e4⟩ := split_mark (dec_plain.unmarked _) (dec_plain.unmarked _) (Or.inl rfl) (Or.inl rfl) e3
  have e5 := List.append_cancel_left (as := " shape: ".toList) e4
  obtain ⟨hs, e6⟩ := shapeStr_inj e5
  have e7 := List.append_cancel_left e6
  obtain ⟨hm, -⟩ := writeAll_inj (pr := pr) hpr (by simp) (by simp) e7
  have hl : m.ops.length = m'.ops.length := by simpa using congrArg List.length hm
  refine ⟨hs, hl, fun k _ => ?_⟩
  have := congrArg (fun l => l[k]?) hm
  simpa [List.getElem?_map, Function.comp_def] using this

/-- a concrete tensor and its text -/
example : String.ofList (matString dec ⟨[1, 2], [2, 1], [3, 4]⟩ ⟨fun p => 10 * p, 5⟩) = "<Mat (dims: 2, len: 2, shape: [1, 2]) => [30, 40]>" := by
  decide +kernel

end Godeep.Props
