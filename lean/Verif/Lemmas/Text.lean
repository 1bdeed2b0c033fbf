import Verif.Model.Text
import Mathlib.Tactic.Common
/-
  The text of a list can be read back.
-/
namespace Godeep.Text

theorem digit_inj {a b : Nat} (ha : a < 10) (hb : b < 10) (h : Char.ofNat (48 + a) = Char.ofNat (48 + b)) : a = b := by
  have : ∀ a < 10, ∀ b < 10, Char.ofNat (48 + a) = Char.ofNat (48 + b) → a = b := by decide
  exact this a ha b hb h

theorem digit_ne {a : Nat} (ha : a < 10) : Char.ofNat (48 + a) ≠ ',' ∧ Char.ofNat (48 + a) ≠ ']' := by
  have : ∀ a < 10, Char.ofNat (48 + a) ≠ ',' ∧ Char.ofNat (48 + a) ≠ ']' := by decide
  exact this a ha

theorem dec_ne_nil (n : Nat) : dec n ≠ [] := by
  unfold dec; split <;> simp

theorem dec_free (n : Nat) : ∀ c ∈ dec n, c ≠ ',' ∧ c ≠ ']' := by
  induction n using Nat.strongRecOn with
  | _ n ih =>
    intro c hc
    unfold dec at hc
    split at hc
    · rename_i h
      rw [List.mem_singleton.1 hc]; exact digit_ne h
    · rename_i h
      rcases List.mem_append.1 hc with hc | hc
      · exact ih (n / 10) (by omega) c hc
      · rw [List.mem_singleton.1 hc]; exact digit_ne (by omega)

theorem dec_inj {a b : Nat} (h : dec a = dec b) : a = b := by
  induction a using Nat.strongRecOn generalizing b with
  | _ a ih =>
    unfold dec at h
    have hn := dec_ne_nil (a / 10)
    have hn' := dec_ne_nil (b / 10)
    split at h <;> split at h <;> rename_i h1 h2
    · exact digit_inj h1 h2 (List.singleton_inj.1 h)
    · have k1 := congrArg List.length h
      have k2 := List.length_pos_iff.2 hn'
      simp only [List.length_append, List.length_singleton] at k1; omega
    · have k1 := congrArg List.length h
      have k2 := List.length_pos_iff.2 hn
      simp only [List.length_append, List.length_singleton] at k1; omega
    · obtain ⟨e1, e2⟩ := List.append_inj' h rfl
      have := ih (a / 10) (by omega) e1
      have := digit_inj (by omega) (by omega) (List.singleton_inj.1 e2)
      omega

/-- the marks that end an element -/
def Mark (c : Char) : Prop := c = ',' ∨ c = ']'

theorem split_mark {x y s t : List Char} {c d : Char} (hx : ∀ a ∈ x, ¬ Mark a) (hy : ∀ a ∈ y, ¬ Mark a) (hc : Mark c) (hd : Mark d)
    (h : x ++ c :: s = y ++ d :: t) : x = y ∧ c = d ∧ s = t := by
  induction x generalizing y with
  | nil =>
    cases y with
    | nil => simpa using h
    | cons b y =>
      simp only [List.nil_append, List.cons_append, List.cons.injEq] at h
      exact absurd (h.1 ▸ hc) (hy b (by simp))
  | cons a x ih =>
    cases y with
    | nil =>
      simp only [List.nil_append, List.cons_append, List.cons.injEq] at h
      exact absurd (h.1 ▸ hd) (hx a (by simp))
    | cons b y =>
      simp only [List.cons_append, List.cons.injEq] at h
      obtain ⟨e1, e2, e3⟩ := ih (fun a ha => hx a (by simp [ha])) (fun a ha => hy a (by simp [ha])) h.2
      exact ⟨by rw [h.1, e1], e2, e3⟩

/-- `pr` writes something, and no mark -/
def Plain {α : Type} (pr : α → List Char) : Prop := ∀ a, pr a ≠ [] ∧ ∀ c ∈ pr a, c ≠ ',' ∧ c ≠ ']'

theorem dec_plain : Plain dec := fun n => ⟨dec_ne_nil n, dec_free n⟩

theorem Plain.unmarked {α : Type} {pr : α → List Char} (hp : Plain pr) (a : α) : ∀ c ∈ pr a, ¬ Mark c :=
  fun c hc hm => hm.elim ((hp a).2 c hc).1 ((hp a).2 c hc).2

/-- what follows an element -/
theorem writeAll_cons {α : Type} (pr : α → List Char) (n i : Nat) (d : α) (l : List α) (hn : n = i + (l.length + 1)) (r : List Char) :
    ∃ c s, Mark c ∧ writeAll pr n i (d :: l) ++ ']' :: r = pr d ++ c :: s ∧
      (l = [] → c = ']' ∧ s = r) ∧ (l ≠ [] → c = ',' ∧ s = ' ' :: (writeAll pr n (i + 1) l ++ ']' :: r)) := by
  cases l with
  | nil =>
    refine ⟨']', r, Or.inr rfl, ?_, fun _ => ⟨rfl, rfl⟩, fun h => absurd rfl h⟩
    have : ¬ i < n - 1 := by simp at hn; omega
    simp [writeAll, this]
  | cons e l =>
    refine ⟨',', _, Or.inl rfl, ?_, fun h => absurd h (by simp), fun _ => ⟨rfl, rfl⟩⟩
    have : i < n - 1 := by simp at hn; omega
    rw [writeAll, if_pos this]; simp

theorem writeAll_inj {α : Type} {pr : α → List Char} (hp : Plain pr) {l1 l2 : List α} {n1 n2 i1 i2 : Nat} {r1 r2 : List Char}
    (h1 : n1 = i1 + l1.length) (h2 : n2 = i2 + l2.length)
    (h : writeAll pr n1 i1 l1 ++ ']' :: r1 = writeAll pr n2 i2 l2 ++ ']' :: r2) : l1.map pr = l2.map pr ∧ r1 = r2 := by
  induction l1 generalizing l2 i1 i2 with
  | nil =>
    cases l2 with
    | nil => simpa [writeAll] using h
    | cons d l =>
      obtain ⟨c, s, hc, e, -, -⟩ := writeAll_cons pr n2 i2 d l (by simpa using h2) r2
      rw [e] at h
      obtain ⟨e1, -, -⟩ := split_mark (x := []) (by simp) (hp.unmarked d) (Or.inr rfl) hc h
      exact absurd e1.symm (hp d).1
  | cons d l ih =>
    obtain ⟨c, s, hc, e, ce, cn⟩ := writeAll_cons pr n1 i1 d l (by simpa using h1) r1
    rw [e] at h
    cases l2 with
    | nil =>
      obtain ⟨e1, -, -⟩ := split_mark (y := []) (hp.unmarked d) (by simp) hc (Or.inr rfl) h
      exact absurd e1 (hp d).1
    | cons d' l' =>
      obtain ⟨c', s', hc', e', ce', cn'⟩ := writeAll_cons pr n2 i2 d' l' (by simpa using h2) r2
      rw [e'] at h
      obtain ⟨a1, a2, a3⟩ := split_mark (hp.unmarked d) (hp.unmarked d') hc hc' h
      by_cases hl : l = []
      · by_cases hl' : l' = []
        · have := (ce hl).2; have := (ce' hl').2
          subst hl hl'
          simp [a1]; simp_all
        · have := (ce hl).1; have := (cn' hl').1
          exact absurd a2 (by simp_all)
      · by_cases hl' : l' = []
        · have := (cn hl).1; have := (ce' hl').1
          exact absurd a2 (by simp_all)
        · rw [(cn hl).2, (cn' hl').2] at a3
          have := ih (i1 := i1 + 1) (i2 := i2 + 1) (by simp at h1; omega) (by simp at h2; omega) (List.cons.inj a3).2
          exact ⟨by rw [List.map_cons, List.map_cons, a1, this.1], this.2⟩

end Godeep.Text
