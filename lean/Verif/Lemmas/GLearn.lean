import Verif.Lemmas.GBack
/-
  One training step, layer by layer.
-/
set_option linter.unusedSectionVars false

namespace Godeep
open Spec GoNum

variable {T : Type} [GoNum T]

/-- the weights and changes after a step do not depend on the derivative before the first layer -/
theorem learn_der (al mu : T) (y : STensor T) : ∀ (ls : List (LSpec T)) (ts : List Bool) (ps ms : List (List (STensor T))) (x D D' : STensor T),
    (learn al mu y ls ts ps ms x D).1 = (learn al mu y ls ts ps ms x D').1 ∧
    (learn al mu y ls ts ps ms x D).2.1 = (learn al mu y ls ts ps ms x D').2.1
  | [], _, _, _, _, _, _ => ⟨rfl, rfl⟩
  | _ :: _, [], _, _, _, _, _ => ⟨rfl, rfl⟩
  | _ :: _, _ :: _, [], _, _, _, _ => ⟨rfl, rfl⟩
  | _ :: _, _ :: _, _ :: _, [], _, _, _ => ⟨rfl, rfl⟩
  | l :: ls, t :: ts, p :: ps, m :: ms, x, D, D' => by
    have ih := learn_der al mu y ls ts ps ms (l.fn p x) (l.der p x D) (l.der p x D')
    cases hw : l.weighted
    · have h1 : ∀ d r x, l.learned al mu p m d r x = p := fun d r x => by cases l <;> first | rfl | simp [LSpec.weighted] at hw
      have h2 : ∀ d, l.changed al mu m d = m := fun d => by cases l <;> first | rfl | simp [LSpec.weighted] at hw
      simp only [learn, h1, h2, ih.1, ih.2, and_self]
    · have h : l.der p x D = l.der p x D' := by cases l <;> first | rfl | simp [LSpec.weighted] at hw
      simp only [learn, h, and_self]

/-- the part of a training step behind layer `j` -/
def learnAt (al mu : T) (y : STensor T) (ls : List (LSpec T)) (ts : List Bool) (pv mv : List (List (STensor T))) (x D0 : STensor T) (j : Nat) :=
  learn al mu y (ls.drop j) (ts.drop j) (pv.drop j) (mv.drop j) (netFn (ls.take j) (pv.take j) x) (netDer (ls.take j) (pv.take j) x D0)

section
variable {al mu : T} {y : STensor T} {ls : List (LSpec T)} {ts : List Bool} {pv mv : List (List (STensor T))} {x D0 : STensor T}

theorem learnAt_step (ht : ts.length = ls.length) (hp : pv.length = ls.length) (hm : mv.length = ls.length) {j : Nat} {s : LSpec T}
    (hs : ls[j]? = some s) : learnAt al mu y ls ts pv mv x D0 j =
      (let q := learnAt al mu y ls ts pv mv x D0 (j + 1)
       let d := q.2.2
       let r := shared (uses (ls.drop (j + 1))) d
       ((if ts.getD j false then s.learned al mu (pv.getD j []) (mv.getD j []) d r (netFn (ls.take j) (pv.take j) x) else pv.getD j []) :: q.1,
        s.changed al mu (mv.getD j []) d :: q.2.1,
        s.back (pv.getD j []) d r (netFn (ls.take j) (pv.take j) x) (netDer (ls.take j) (pv.take j) x D0))) := by
  obtain ⟨hj, es⟩ := List.getElem?_eq_some_iff.1 hs
  have et : ts[j]? = some (ts[j]'(by omega)) := List.getElem?_eq_getElem _
  have ep : pv[j]? = some (pv[j]'(by omega)) := List.getElem?_eq_getElem _
  have em : mv[j]? = some (mv[j]'(by omega)) := List.getElem?_eq_getElem _
  have hl : (pv.take j).length = (ls.take j).length := by rw [List.length_take, List.length_take, hp]
  unfold learnAt
  rw [take_snoc hs, take_snoc ep, netFn_append hl, netDer_append hl]
  rw [List.drop_eq_getElem_cons hj, List.drop_eq_getElem_cons (show j < ts.length by omega), List.drop_eq_getElem_cons (show j < pv.length by omega),
    List.drop_eq_getElem_cons (show j < mv.length by omega), es]
  simp only [learn, List.getD_eq_getElem?_getD, et, ep, em, Option.getD_some]

theorem learnAt_last {j : Nat} (hj : ls.length ≤ j) : learnAt al mu y ls ts pv mv x D0 j = ([], [], ⟨(netFn (ls.take j) (pv.take j) x).shape,
    fun idx => GoNum.sub (y.get idx) ((netFn (ls.take j) (pv.take j) x).get idx)⟩) := by
  unfold learnAt
  rw [List.drop_eq_nil_of_le hj]; rfl

theorem learnAt_errs (ht : ts.length = ls.length) (hp : pv.length = ls.length) (hm : mv.length = ls.length) :
    Errs ls pv x D0 ls.length fun j => (learnAt al mu y ls ts pv mv x D0 j).2.2 := by
  intro j s _ hs
  dsimp only
  rw [learnAt_step ht hp hm hs]

/-- the new weights and changes of layer `j` -/
theorem learnAt_get (ht : ts.length = ls.length) (hp : pv.length = ls.length) (hm : mv.length = ls.length) {j : Nat} {s : LSpec T}
    (hs : ls[j]? = some s) :
    (learn al mu y ls ts pv mv x D0).1[j]? = some (if ts.getD j false then s.learned al mu (pv.getD j []) (mv.getD j [])
      (learnAt al mu y ls ts pv mv x D0 (j + 1)).2.2 (shared (uses (ls.drop (j + 1))) (learnAt al mu y ls ts pv mv x D0 (j + 1)).2.2)
      (netFn (ls.take j) (pv.take j) x) else pv.getD j []) ∧
    (learn al mu y ls ts pv mv x D0).2.1[j]? = some (s.changed al mu (mv.getD j []) (learnAt al mu y ls ts pv mv x D0 (j + 1)).2.2) := by
  have key : ∀ i ≤ ls.length, (learn al mu y ls ts pv mv x D0).1.drop i = (learnAt al mu y ls ts pv mv x D0 i).1 ∧
      (learn al mu y ls ts pv mv x D0).2.1.drop i = (learnAt al mu y ls ts pv mv x D0 i).2.1 := by
    intro i
    induction i with
    | zero => intro _; exact ⟨rfl, rfl⟩
    | succ i ih =>
      intro hi
      obtain ⟨i1, i2⟩ := ih (by omega)
      have := learnAt_step (al := al) (mu := mu) (y := y) (x := x) (D0 := D0) ht hp hm (List.getElem?_eq_getElem (show i < ls.length by omega))
      rw [this] at i1 i2
      dsimp only at i1 i2
      rw [← List.tail_drop, ← List.tail_drop, i1, i2]; exact ⟨rfl, rfl⟩
  obtain ⟨k1, k2⟩ := key j (Nat.le_of_lt (List.getElem?_eq_some_iff.1 hs).1)
  have e := learnAt_step (al := al) (mu := mu) (y := y) (x := x) (D0 := D0) ht hp hm hs
  rw [e] at k1 k2
  dsimp only at k1 k2
  have g1 := congrArg (fun l => l[0]?) k1
  have g2 := congrArg (fun l => l[0]?) k2
  simp only [List.getElem?_drop, Nat.add_zero, List.getElem?_cons_zero] at g1 g2
  exact ⟨g1, g2⟩

theorem learn_length (al mu : T) (y : STensor T) : ∀ (ls : List (LSpec T)) (ts : List Bool) (pv mv : List (List (STensor T))) (x D0 : STensor T),
    ts.length = ls.length → pv.length = ls.length → mv.length = ls.length →
    (learn al mu y ls ts pv mv x D0).1.length = ls.length ∧ (learn al mu y ls ts pv mv x D0).2.1.length = ls.length
  | [], _, _, _, _, _, _, _, _ => ⟨rfl, rfl⟩
  | _ :: _, [], _, _, _, _, h, _, _ => by simp at h
  | _ :: _, _ :: _, [], _, _, _, _, h, _ => by simp at h
  | _ :: _, _ :: _, _ :: _, [], _, _, _, _, h => by simp at h
  | l :: ls, t :: ts, p :: pv, m :: mv, x, D0, h1, h2, h3 => by
    have := learn_length al mu y ls ts pv mv (l.fn p x) (l.der p x D0) (by simpa using h1) (by simpa using h2) (by simpa using h3)
    simp only [learn, List.length_cons, this.1, this.2, and_self]

end
end Godeep
