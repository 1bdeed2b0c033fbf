import Verif.Lemmas.Mat
/-
  Helper facts for slicing, concatenation and contraction of indices.
-/
namespace Godeep
open Spec GoNum

theorem modify_eq_set {i : List Nat} {d v : Nat} (f : Nat → Nat) (h : i[d]? = some v) :
    i.modify d f = i.set d (f v) := by
  apply List.ext_getElem?
  intro k
  rw [List.getElem?_modify, List.getElem?_set]
  have hd : d < i.length := (List.getElem?_eq_some_iff.1 h).1
  by_cases hk : d = k
  · subst hk; rw [if_pos rfl, if_pos hd, h]; simp
  · simp [hk]

theorem set_getD_self {i : List Nat} {d : Nat} (h : d < i.length) : i.set d (i.getD d 0) = i := by
  apply List.ext_getElem?
  intro k
  rw [List.getElem?_set]
  by_cases hk : d = k
  · subst hk; simp [List.getD, h]
  · simp [hk]

theorem inRange_set_elim {s i : List Nat} {d n : Nat} (hd : d < s.length)
    (h : InRange (s.set d n) i) :
    ∃ v, i[d]? = some v ∧ i.getD d 0 = v ∧ v < n ∧
      ∀ w, w < s.getD d 0 → InRange s (i.set d w) := by
  rw [inRange_iff] at h
  obtain ⟨hl, hk⟩ := h
  have hl' : i.length = s.length := by simpa using hl
  have hdi : d < i.length := by omega
  refine ⟨i[d], List.getElem?_eq_getElem hdi, by simp [List.getD, hdi], ?_, ?_⟩
  · exact hk d i[d] n (List.getElem?_eq_getElem hdi) (by rw [List.getElem?_set]; simp [hd])
  · intro w hw
    rw [inRange_iff]
    refine ⟨by simpa using hl', ?_⟩
    intro k a b ha hb
    rw [List.getElem?_set] at ha
    by_cases hdk : d = k
    · subst hdk
      rw [if_pos rfl, if_pos hdi] at ha
      injection ha with ha
      subst ha
      simpa [List.getD, hb] using hw
    · rw [if_neg hdk] at ha
      exact hk k a b ha (by rw [List.getElem?_set, if_neg hdk]; exact hb)

theorem inRange_set_intro {s i : List Nat} {d n w : Nat} (hd : d < s.length) (h : InRange s i)
    (hw : w < n) : InRange (s.set d n) (i.set d w) := by
  rw [inRange_iff] at h ⊢
  obtain ⟨hl, hk⟩ := h
  refine ⟨by simpa using hl, ?_⟩
  intro k a b ha hb
  rw [List.getElem?_set] at ha hb
  by_cases hdk : d = k
  · subst hdk
    rw [if_pos rfl, if_pos (by omega)] at ha
    rw [if_pos rfl, if_pos hd] at hb
    injection ha with ha; injection hb with hb; omega
  · rw [if_neg hdk] at ha hb
    exact hk k a b ha hb

theorem size_set_add {s : List Nat} {d x y : Nat} (hd : d < s.length) :
    size (s.set d (x + y)) = size (s.set d x) + size (s.set d y) := by
  induction s generalizing d with
  | nil => simp at hd
  | cons a s ih =>
    cases d with
    | zero => simp only [List.set_cons_zero, size]; ring
    | succ d =>
      simp only [List.set_cons_succ, size]
      rw [ih (by simpa using hd)]; ring

theorem bump_ok {i : List Nat} {d v s : Nat} (h : i[d]? = some v) :
    Mat.bump i d s = .ok (i.set d (v + s)) := by simp [Mat.bump, h]

theorem inRange_getD {s i : List Nat} {d : Nat} (h : InRange s i) (hd : d < s.length) :
    i[d]? = some (i.getD d 0) ∧ i.getD d 0 < s.getD d 0 := by
  have hl := inRange_length h
  have hdi : d < i.length := by omega
  refine ⟨by simp [List.getD, hdi], ?_⟩
  have := (inRange_iff.1 h).2 d i[d] s[d] (List.getElem?_eq_getElem hdi) (List.getElem?_eq_getElem hd)
  simpa [List.getD, hdi, hd] using this

theorem spread_getElem? (idx : List Nat) (d j : Nat) :
    (Mat.spread idx d)[j]? = if j < idx.length + 1 then
      some (if j < d then idx.getD j 0 else if j = d then 0 else idx.getD (j - 1) 0) else none := by
  unfold Mat.spread
  rw [List.getElem?_map]
  by_cases hj : j < idx.length + 1
  · rw [if_pos hj, List.getElem?_range hj]; rfl
  · rw [if_neg hj, List.getElem?_eq_none (by simpa using hj)]; rfl

theorem spread_set (idx : List Nat) (d k : Nat) (hd : d ≤ idx.length) :
    (Mat.spread idx d).set d k = idx.insertIdx d k := by
  apply List.ext_getElem?
  intro j
  have hl : (Mat.spread idx d).length = idx.length + 1 := by simp [Mat.spread]
  rw [List.getElem?_set, List.getElem?_insertIdx, hl, spread_getElem?]
  by_cases h1 : d = j
  · subst h1; simp [show d < idx.length + 1 by omega, hd]
  · rw [if_neg h1]
    by_cases h2 : j < d
    · rw [if_pos h2, if_pos (by omega), if_pos h2]
      rw [List.getElem?_eq_getElem (by omega)]
      simp [List.getD, show j < idx.length by omega]
    · have h1' : ¬ j = d := fun h => h1 h.symm
      simp only [if_neg h2, if_neg h1']
      by_cases h3 : j < idx.length + 1
      · rw [if_pos h3, List.getElem?_eq_getElem (show j - 1 < idx.length by omega)]
        simp [List.getD, show j - 1 < idx.length by omega]
      · rw [if_neg h3, List.getElem?_eq_none (by omega)]

theorem inRange_insertIdx {s i : List Nat} {d k : Nat} (hd : d < s.length)
    (h : InRange (s.eraseIdx d) i) (hk : k < s.getD d 0) : InRange s (i.insertIdx d k) := by
  induction s generalizing i d with
  | nil => simp at hd
  | cons x s ih =>
    cases d with
    | zero =>
      simp only [List.eraseIdx_cons_zero] at h
      simp only [List.insertIdx_zero]
      exact List.Forall₂.cons (by simpa using hk) h
    | succ d =>
      simp only [List.eraseIdx_cons_succ] at h
      obtain ⟨y, ys, rfl, hy, hr⟩ := inRange_cons_left h
      simp only [List.insertIdx_succ_cons]
      exact List.Forall₂.cons hy (ih (by simpa using hd) hr (by simpa using hk))

end Godeep
