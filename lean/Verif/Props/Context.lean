import Verif.Model.Context
import Mathlib.Data.List.Basic
/-
  C20: a context returns the operations in the order in which they were pushed.
-/
namespace Godeep.Props
open Godeep

variable {α : Type}

/-- the cells are the operations in order, each pointing to the next, the last to nil -/
def Chain (ops : List α) (cells : List (α × Option Nat)) : Prop :=
  cells.length = ops.length ∧ ∀ (i : Nat) (o : α), ops[i]? = some o →
    cells[i]? = some (o, if i + 1 < ops.length then some (i + 1) else none)

/-- what the fields look like after `ops` have been pushed -/
structure CtxRep (c : Ctx α) (ops : List α) : Prop where
  size : c.size = ops.length
  chain : Chain ops c.cells
  start : c.start = if ops = [] then none else some 0
  end_ : c.end_ = if ops = [] then none else some (ops.length - 1)

theorem push_rep {c : Ctx α} {ops : List α} (h : CtxRep c ops) (o : α) :
    ∃ c', c.push o = .ok () c' ∧ CtxRep c' (ops ++ [o]) := by
  obtain ⟨h1, ⟨h2, h3⟩, h4, h5⟩ := h
  unfold Ctx.push
  by_cases he : ops = []
  · subst he
    have hc : c.cells = [] := List.eq_nil_of_length_eq_zero (by simpa using h2)
    rw [if_pos rfl] at h4
    simp only [h4, hc]
    refine ⟨_, rfl, ⟨by simp [h1], ⟨by simp, ?_⟩, by simp, by simp⟩⟩
    intro i o' ho
    cases i with
    | zero => simp at ho; simp [ho]
    | succ i => simp at ho
  · rw [if_neg he] at h4 h5
    have hpos : 0 < ops.length := List.length_pos_of_ne_nil he
    simp only [h4, h5]
    refine ⟨_, rfl, ⟨by simp [h1], ⟨by simp [h2], ?_⟩, by simp [h4], by simp [h2]⟩⟩
    intro i o' ho
    rw [List.getElem?_modify]
    by_cases hi : i < ops.length
    · rw [List.getElem?_append_left hi] at ho
      rw [List.getElem?_append_left (by omega), h3 i o' ho]
      by_cases hl : ops.length - 1 = i
      · subst hl
        have : ops.length - 1 + 1 < ops.length + 1 := by omega
        simp [this, h2]; omega
      · have h6 : i + 1 < ops.length := by omega
        have h7 : i + 1 < ops.length + 1 := by omega
        simp [hl, h6, h7]
    · rw [List.getElem?_append_right (by omega)] at ho
      have hi' : i = ops.length := by
        have := (List.getElem?_eq_some_iff.1 ho).1
        simp at this; omega
      subst hi'
      simp at ho
      rw [List.getElem?_append_right (by omega)]
      have : ¬ ops.length - 1 = ops.length := by omega
      simp [h2, this, ho]

theorem walk_drop {ops : List α} {cells : List (α × Option Nat)} (h : Chain ops cells) :
    ∀ (k i : Nat), i + k = ops.length →
      Ctx.walk cells k (if i < ops.length then some i else none) = .ok (ops.drop i) := by
  intro k
  induction k with
  | zero =>
    intro i hi
    simp only [Ctx.walk]
    rw [List.drop_eq_nil_of_le (by omega)]
  | succ k ih =>
    intro i hi
    have hlt : i < ops.length := by omega
    have hg := h.2 i ops[i] (List.getElem?_eq_getElem hlt)
    rw [if_pos hlt]
    simp only [Ctx.walk, hg]
    rw [ih (i + 1) (by omega)]
    simp only [Res.map_ok]
    rw [← List.drop_eq_getElem_cons hlt]

/-- Whatever is pushed onto a new context, pushing never fails and `GetOps` returns exactly the
pushed operations, in that order. -/
theorem C20_context_fifo (ops : List α) :
    ∃ c, Ctx.pushAll ops Ctx.new = .ok () c ∧ c.getOps = .ok ops := by
  have key : ∀ (todo done : List α) (c : Ctx α), CtxRep c done →
      ∃ c', Ctx.pushAll todo c = .ok () c' ∧ CtxRep c' (done ++ todo) := by
    intro todo
    induction todo with
    | nil => intro done c h; exact ⟨c, rfl, by simpa using h⟩
    | cons o todo ih =>
      intro done c h
      obtain ⟨c1, e1, r1⟩ := push_rep h o
      obtain ⟨c2, e2, r2⟩ := ih (done ++ [o]) c1 r1
      exact ⟨c2, by simp [Ctx.pushAll, e1, e2], by simpa using r2⟩
  have h0 : CtxRep (Ctx.new : Ctx α) [] :=
    ⟨rfl, ⟨rfl, by simp⟩, rfl, rfl⟩
  obtain ⟨c, e, r⟩ := key ops [] Ctx.new h0
  refine ⟨c, e, ?_⟩
  rw [List.nil_append] at r
  unfold Ctx.getOps
  rw [r.size, r.start]
  have := walk_drop r.chain ops.length 0 (by simp)
  by_cases he : ops = []
  · subst he; rfl
  · rw [if_pos (List.length_pos_of_ne_nil he)] at this
    rw [if_neg he, this]; rfl

/-- Reading the operations in the middle does not disturb anything: later pushes are appended. -/
theorem C20_context_append (ops more : List α) :
    ∃ c c', Ctx.pushAll ops Ctx.new = .ok () c ∧ c.getOps = .ok ops ∧
      Ctx.pushAll more c = .ok () c' ∧ c'.getOps = .ok (ops ++ more) := by
  obtain ⟨c, e, g⟩ := C20_context_fifo ops
  obtain ⟨c', e', g'⟩ := C20_context_fifo (ops ++ more)
  refine ⟨c, c', e, g, ?_, g'⟩
  have : ∀ (l1 : List α) (c0 : Ctx α), Ctx.pushAll (l1 ++ more) c0 =
      (Ctx.pushAll l1 c0).bind fun _ c => Ctx.pushAll more c := by
    intro l1
    induction l1 with
    | nil => intro c0; rfl
    | cons o l1 ih =>
      intro c0
      simp only [List.cons_append, Ctx.pushAll]
      cases c0.push o <;> simp [ih]
  rw [this, e] at e'
  exact e'

example : ((Ctx.pushAll [3, 1, 2] (Ctx.new : Ctx Nat)).bind fun _ c => Out.ofRes c c.getOps).res =
    .ok [3, 1, 2] := by decide

end Godeep.Props
