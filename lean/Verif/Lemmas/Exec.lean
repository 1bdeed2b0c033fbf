import Verif.Spec.Expr
import Verif.Lemmas.Struct
/-
  Executing operation lists.
-/
set_option linter.unusedSectionVars false

namespace Godeep
open Spec GoNum

variable {T : Type} [GoNum T]

/-- the cell an operation writes -/
def Op.dst : Op T → Option Ptr
  | .nop _ => none
  | .asg p _ => some p

def Op.reads : Op T → List Ptr
  | .nop _ => []
  | .asg _ r => r.reads

def dsts (ops : List (Op T)) : List Ptr := ops.filterMap Op.dst

@[simp] theorem dsts_nil : dsts ([] : List (Op T)) = [] := rfl
@[simp] theorem dsts_append (a b : List (Op T)) : dsts (a ++ b) = dsts a ++ dsts b := by
  simp [dsts]
@[simp] theorem dsts_asg (p : Ptr) (r : Rhs T) (l : List (Op T)) :
    dsts (.asg p r :: l) = p :: dsts l := rfl
@[simp] theorem dsts_nop (p : Ptr) (l : List (Op T)) : dsts (.nop p :: l) = dsts l := rfl

theorem exec_append (a b : List (Op T)) (h : Heap T) :
    exec (a ++ b) h = (exec a h).bind fun _ h' => exec b h' := by
  induction a generalizing h with
  | nil => rfl
  | cons o a ih =>
    simp only [List.cons_append, exec]
    cases o.cal h with
    | ok u h1 => simp [ih]
    | err e h1 => rfl
    | panic => rfl

theorem exec_append_ok {a b : List (Op T)} {h h' : Heap T} :
    exec (a ++ b) h = .ok () h' ↔ ∃ h1, exec a h = .ok () h1 ∧ exec b h1 = .ok () h' := by
  rw [exec_append]
  cases exec a h with
  | ok u h1 => simp
  | err e h1 => simp
  | panic => simp

theorem cal_asg_ok {p : Ptr} {r : Rhs T} {h h' : Heap T} :
    (Op.asg p r).cal h = .ok () h' ↔ p ≠ 0 ∧ ∃ v, r.eval h = .ok v ∧ h' = h.put p v := by
  simp only [Op.cal]
  generalize r.eval h = x
  cases x with
  | ok v =>
    by_cases hp : p = 0
    · simp [hp, Heap.store]
    · simp [hp, Heap.store, eq_comm]
  | err e => simp
  | panic => simp

theorem exec_cons_asg_ok {p : Ptr} {r : Rhs T} {l : List (Op T)} {h h' : Heap T} :
    exec (.asg p r :: l) h = .ok () h' ↔
      p ≠ 0 ∧ ∃ v, r.eval h = .ok v ∧ exec l (h.put p v) = .ok () h' := by
  simp only [exec]
  cases hc : (Op.asg p r).cal h with
  | ok u h1 =>
    obtain ⟨hp, v, hv, rfl⟩ := cal_asg_ok.1 hc
    simp [hp, hv]
  | err e h1 =>
    simp only [Out.bind_err, reduceCtorEq, false_iff, not_and, not_exists]
    intro hp v hv
    rw [cal_asg_ok.2 ⟨hp, v, hv, rfl⟩] at hc; cases hc
  | panic =>
    simp only [Out.bind_panic, reduceCtorEq, false_iff, not_and, not_exists]
    intro hp v hv
    rw [cal_asg_ok.2 ⟨hp, v, hv, rfl⟩] at hc; cases hc

theorem exec_frame {ops : List (Op T)} {h h' : Heap T} (he : exec ops h = .ok () h') :
    h'.next = h.next ∧ ∀ q, q ∉ dsts ops → h'.val q = h.val q := by
  induction ops generalizing h with
  | nil => simp only [exec, Out.ok.injEq, true_and] at he; subst he; exact ⟨rfl, fun _ _ => rfl⟩
  | cons o ops ih =>
    cases o with
    | nop p => exact ih (by simpa [exec, Op.cal] using he)
    | asg p r =>
      obtain ⟨hp, v, hv, he⟩ := exec_cons_asg_ok.1 he
      obtain ⟨h1, h2⟩ := ih he
      refine ⟨h1, fun q hq => ?_⟩
      simp only [dsts_asg, List.mem_cons, not_or] at hq
      rw [h2 q hq.2]
      simp [Heap.put, hq.1]

theorem load_congr {h h' : Heap T} {p : Ptr} (hv : h'.val p = h.val p) : h'.load p = h.load p := by
  simp [Heap.load, hv]

theorem loadAll_congr {h h' : Heap T} {ps : List Ptr} (hv : ∀ p ∈ ps, h'.val p = h.val p) :
    h'.loadAll ps = h.loadAll ps := by
  unfold Heap.loadAll
  induction ps with
  | nil => rfl
  | cons p ps ih =>
    simp only [Res.mapM]
    rw [load_congr (hv p (by simp)), ih (fun q hq => hv q (by simp [hq]))]

theorem eval_congr {h h' : Heap T} {r : Rhs T} (hv : ∀ p ∈ r.reads, h'.val p = h.val p) :
    r.eval h' = r.eval h := by
  cases r with
  | add a b => simp only [Rhs.eval]; rw [load_congr (hv a (by simp [Rhs.reads])), load_congr (hv b (by simp [Rhs.reads]))]
  | sub a b => simp only [Rhs.eval]; rw [load_congr (hv a (by simp [Rhs.reads])), load_congr (hv b (by simp [Rhs.reads]))]
  | mul a b => simp only [Rhs.eval]; rw [load_congr (hv a (by simp [Rhs.reads])), load_congr (hv b (by simp [Rhs.reads]))]
  | div a b => simp only [Rhs.eval]; rw [load_congr (hv a (by simp [Rhs.reads])), load_congr (hv b (by simp [Rhs.reads]))]
  | equals a b => simp only [Rhs.eval]; rw [load_congr (hv a (by simp [Rhs.reads])), load_congr (hv b (by simp [Rhs.reads]))]
  | neg a => simp only [Rhs.eval]; rw [load_congr (hv a (by simp [Rhs.reads]))]
  | abs a => simp only [Rhs.eval]; rw [load_congr (hv a (by simp [Rhs.reads]))]
  | set a => simp only [Rhs.eval]; rw [load_congr (hv a (by simp [Rhs.reads]))]
  | func f a => simp only [Rhs.eval]; rw [load_congr (hv a (by simp [Rhs.reads]))]
  | sum args => simp only [Rhs.eval]; rw [loadAll_congr (ps := args) (fun p hp => hv p hp)]
  | avg args => simp only [Rhs.eval]; rw [loadAll_congr (ps := args) (fun p hp => hv p hp)]
  | max args => simp only [Rhs.eval]; rw [loadAll_congr (ps := args) (fun p hp => hv p hp)]
  | min args => simp only [Rhs.eval]; rw [loadAll_congr (ps := args) (fun p hp => hv p hp)]

/-- operations writing `lo, lo+1, ...` -/
def asgs : Nat → List (Rhs T) → List (Op T)
  | _, [] => []
  | lo, r :: rs => .asg lo r :: asgs (lo + 1) rs

theorem asgs_append (lo : Nat) (a b : List (Rhs T)) :
    asgs lo (a ++ b) = asgs lo a ++ asgs (lo + a.length) b := by
  induction a generalizing lo with
  | nil => rfl
  | cons r a ih => simp [asgs, ih, Nat.add_assoc, Nat.add_comm 1]

theorem mem_dsts_asgs {lo : Nat} {rs : List (Rhs T)} {q : Ptr} :
    q ∈ dsts (asgs lo rs) ↔ lo ≤ q ∧ q < lo + rs.length := by
  induction rs generalizing lo with
  | nil => simp [asgs]
  | cons r rs ih =>
    simp only [asgs, dsts_asg, List.mem_cons, ih, List.length_cons]
    omega

/-- Assignments to fresh cells whose right-hand sides read only older cells: afterwards every cell
holds the value of its right-hand side. -/
theorem exec_asgs {rs : List (Rhs T)} {lo0 lo : Nat} (hle : lo0 ≤ lo)
    (hr : ∀ r ∈ rs, ∀ q ∈ r.reads, q < lo0) {h h' : Heap T} (he : exec (asgs lo rs) h = .ok () h') :
    ∀ (i : Nat) (r : Rhs T), rs[i]? = some r → r.eval h' = .ok (h'.val (lo + i)) := by
  induction rs generalizing lo h with
  | nil => intro i r hi; simp at hi
  | cons r0 rs ih =>
    obtain ⟨hp, v, hv, he⟩ := exec_cons_asg_ok.1 he
    have hf := (exec_frame he).2
    intro i r hi
    cases i with
    | zero =>
      simp only [List.getElem?_cons_zero, Option.some.injEq] at hi
      subst hi
      have h1 : h'.val (lo + 0) = v := by
        rw [hf _ (by rw [mem_dsts_asgs]; omega)]; simp [Heap.put]
      rw [h1, ← hv]
      apply eval_congr
      intro q hq
      have := hr r0 (by simp) q hq
      rw [hf q (by rw [mem_dsts_asgs]; omega)]
      have hne : q ≠ lo := by omega
      simp [Heap.put, hne]
    | succ i =>
      have := ih (lo := lo + 1) (by omega) (fun r hr' => hr r (by simp [hr'])) he i r (by simpa using hi)
      rw [this]; congr 2; omega

/-! values computed by a successful operation -/

theorem load_ok {h : Heap T} {p : Ptr} {v : T} (he : h.load p = .ok v) : p ≠ 0 ∧ v = h.val p := by
  unfold Heap.load at he
  by_cases hp : p = 0
  · rw [if_pos hp] at he; cases he
  · rw [if_neg hp] at he; injection he with he; exact ⟨hp, he.symm⟩

theorem loadAll_ok {h : Heap T} {ps : List Ptr} {vs : List T} (he : h.loadAll ps = .ok vs) :
    vs = ps.map h.val := by
  unfold Heap.loadAll at he
  induction ps generalizing vs with
  | nil => simp only [Res.mapM, Res.ok.injEq] at he; simp [← he]
  | cons p ps ih =>
    simp only [Res.mapM] at he
    cases hp : h.load p with
    | ok x =>
      rw [hp, Res.bind_ok] at he
      cases hm : Res.mapM h.load ps with
      | ok xs =>
        rw [hm, Res.map_ok] at he
        injection he with he
        rw [← he, List.map_cons, ← ih hm, (load_ok hp).2]
      | err e => rw [hm] at he; cases he
      | panic => rw [hm] at he; cases he
    | err e => rw [hp] at he; cases he
    | panic => rw [hp] at he; cases he

theorem res_bind_ok {α β : Type} {r : Res α} {f : α → Res β} {b : β} (h : r.bind f = .ok b) :
    ∃ a, r = .ok a ∧ f a = .ok b := by
  cases r with
  | ok a => exact ⟨a, rfl, h⟩
  | err e => cases h
  | panic => cases h

theorem res_map_ok {α β : Type} {r : Res α} {f : α → β} {b : β} (h : r.map f = .ok b) :
    ∃ a, r = .ok a ∧ f a = b := by
  cases r with
  | ok a => injection h with h; exact ⟨a, rfl, h⟩
  | err e => cases h
  | panic => cases h

theorem divR_ok {x y v : T} (h : divR x y = .ok v) : v = GoNum.div x y := by
  unfold divR at h; split at h
  · cases h
  · injection h with h; exact h.symm

theorem arith_eval {o : Arith} {x y : Ptr} {h : Heap T} {v : T} (he : (o.rhs x y).eval h = .ok v) :
    v = o.fn (h.val x) (h.val y) := by
  cases o <;> simp only [Arith.rhs, Rhs.eval] at he <;> obtain ⟨a, ha, he⟩ := res_bind_ok he
  · obtain ⟨b, hb, he⟩ := res_map_ok he
    rw [← he, (load_ok ha).2, (load_ok hb).2]; rfl
  · obtain ⟨b, hb, he⟩ := res_map_ok he
    rw [← he, (load_ok ha).2, (load_ok hb).2]; rfl
  · obtain ⟨b, hb, he⟩ := res_map_ok he
    rw [← he, (load_ok ha).2, (load_ok hb).2]; rfl
  · obtain ⟨b, hb, he⟩ := res_bind_ok he
    rw [divR_ok he, (load_ok ha).2, (load_ok hb).2]; rfl

theorem red_eval {o : Red} {args : List Ptr} {h : Heap T} {v : T}
    (he : (o.rhs args).eval h = .ok v) : v = o.fn (args.map h.val) := by
  cases o <;> simp only [Red.rhs, Rhs.eval] at he <;> obtain ⟨vs, hvs, he⟩ := res_bind_ok he <;>
    have hl := loadAll_ok hvs <;> cases vs with
    | nil => cases he
    | cons w ws => ?_
  · injection he with he; rw [← hl, ← he]; rfl
  · rw [divR_ok he, ← hl]
    have : (args.map h.val).length = args.length := by simp
    rw [← hl] at this
    simp only [Red.fn, sum1, ← this]
  · injection he with he; rw [← hl, ← he]; rfl
  · injection he with he; rw [← hl, ← he]; rfl

theorem sum_eval {args : List Ptr} {h : Heap T} {v : T} (he : (Rhs.sum args).eval h = .ok v) :
    v = sum1 (args.map h.val) := red_eval (o := .sum) he

/-! single assignment -/

/-- every cell is written once, after which nothing it was computed from is written -/
def SSA : List (Op T) → Prop
  | [] => True
  | o :: l => (∀ q, o.dst = some q → q ∉ o.reads ∧ q ∉ dsts l) ∧ (∀ q ∈ dsts l, q ∉ o.reads) ∧ SSA l

/-- every cell written holds the value of its right-hand side -/
def Sat (ops : List (Op T)) (h : Heap T) : Prop :=
  ∀ p r, .asg p r ∈ ops → r.eval h = .ok (h.val p)

theorem ssa_append {a b : List (Op T)} (ha : SSA a) (hb : SSA b)
    (h1 : ∀ q ∈ dsts a, q ∉ dsts b) (h2 : ∀ o ∈ a, ∀ q ∈ dsts b, q ∉ o.reads) : SSA (a ++ b) := by
  induction a with
  | nil => exact hb
  | cons o a ih =>
    obtain ⟨x1, x2, x3⟩ := ha
    have hsub : ∀ q ∈ dsts a, q ∈ dsts (o :: a) := by
      intro q hq
      cases o <;> simp [hq]
    refine ⟨fun q hq => ?_, fun q hq => ?_, ih x3 (fun q hq => h1 q (hsub q hq)) (fun o' ho' => h2 o' (by simp [ho']))⟩
    · have hm : q ∈ dsts (o :: a) := by
        cases o with
        | nop p => cases hq
        | asg p r => simp only [Op.dst, Option.some.injEq] at hq; simp [hq]
      change q ∉ o.reads ∧ q ∉ dsts (a ++ b)
      simp only [dsts_append, List.mem_append, not_or]
      exact ⟨(x1 q hq).1, (x1 q hq).2, h1 q hm⟩
    · change q ∈ dsts (a ++ b) at hq
      rw [dsts_append, List.mem_append] at hq
      rcases hq with hq | hq
      · exact x2 q hq
      · exact h2 o (by simp) q hq

theorem sat_append {a b : List (Op T)} {h : Heap T} : Sat (a ++ b) h ↔ Sat a h ∧ Sat b h := by
  simp only [Sat, List.mem_append]
  exact ⟨fun hs => ⟨fun p r hm => hs p r (Or.inl hm), fun p r hm => hs p r (Or.inr hm)⟩,
    fun hs p r hm => hm.elim (hs.1 p r) (hs.2 p r)⟩

theorem exec_ssa {ops : List (Op T)} (hs : SSA ops) {h h' : Heap T} (he : exec ops h = .ok () h') :
    Sat ops h' := by
  induction ops generalizing h with
  | nil => intro p r hm; cases hm
  | cons o ops ih =>
    obtain ⟨x1, x2, x3⟩ := hs
    intro p r hm
    cases o with
    | nop q =>
      have he' : exec ops h = .ok () h' := by simpa [exec, Op.cal] using he
      rcases List.mem_cons.1 hm with hm | hm
      · cases hm
      · exact ih x3 he' p r hm
    | asg q r0 =>
      obtain ⟨hq, v, hv, he'⟩ := exec_cons_asg_ok.1 he
      rcases List.mem_cons.1 hm with hm | hm
      · injection hm with e1 e2
        subst e1; subst e2
        have hf := (exec_frame he').2
        have hx := x1 p rfl
        have h1 : h'.val p = v := by rw [hf p hx.2]; simp [Heap.put]
        rw [h1, ← hv]
        apply eval_congr
        intro c hc
        have hc2 : c ≠ p := fun e => hx.1 (e ▸ hc)
        rw [hf c (fun hm => x2 c hm hc)]
        simp [Heap.put, hc2]
      · exact ih x3 he' p r hm

theorem ssa_asgs {rs : List (Rhs T)} {lo0 lo : Nat} (hle : lo0 ≤ lo)
    (hr : ∀ r ∈ rs, ∀ q ∈ r.reads, q < lo0) : SSA (asgs lo rs) := by
  induction rs generalizing lo with
  | nil => trivial
  | cons r rs ih =>
    refine ⟨fun q hq => ?_, fun q hq hc => ?_, ih (by omega) (fun r hm => hr r (by simp [hm]))⟩
    · simp only [Op.dst, Option.some.injEq] at hq
      subst hq
      refine ⟨fun hc => ?_, by rw [mem_dsts_asgs]; omega⟩
      have := hr r (by simp) _ hc
      omega
    · rw [mem_dsts_asgs] at hq
      have := hr r (by simp) q hc
      omega

theorem mem_asgs {rs : List (Rhs T)} {lo i : Nat} {r : Rhs T} (h : rs[i]? = some r) :
    Op.asg (lo + i) r ∈ asgs lo rs := by
  induction rs generalizing lo i with
  | nil => simp at h
  | cons r0 rs ih =>
    cases i with
    | zero => simp only [List.getElem?_cons_zero, Option.some.injEq] at h; subst h; simp [asgs]
    | succ i =>
      have := ih (lo := lo + 1) (i := i) (by simpa using h)
      rw [show lo + (i + 1) = lo + 1 + i by omega]
      simp only [asgs, List.mem_cons]; exact Or.inr this

theorem of_mem_asgs {rs : List (Rhs T)} {lo : Nat} {o : Op T} (h : o ∈ asgs lo rs) :
    ∃ i r, rs[i]? = some r ∧ o = .asg (lo + i) r := by
  induction rs generalizing lo with
  | nil => simp [asgs] at h
  | cons r0 rs ih =>
    rcases List.mem_cons.1 h with h | h
    · exact ⟨0, r0, rfl, h⟩
    · obtain ⟨i, r, h1, h2⟩ := ih h
      exact ⟨i + 1, r, by simpa using h1, by rw [h2]; congr 1; omega⟩

/-- updating each cell of a list in place from its own value and that of a cell outside -/
theorem exec_inplace {ps : List Ptr} {c : Ptr} (hnd : ps.Nodup) (hc : c ∉ ps) {h h' : Heap T}
    (he : exec (ps.map fun p => Op.asg p (.div p c)) h = .ok () h') :
    ∀ p ∈ ps, h'.val p = GoNum.div (h.val p) (h.val c) := by
  induction ps generalizing h with
  | nil => intro p hp; simp at hp
  | cons p0 ps ih =>
    rw [List.map_cons] at he
    obtain ⟨hp0, v, hv, he⟩ := exec_cons_asg_ok.1 he
    have hv' := arith_eval (o := .div) (x := p0) (y := c) hv
    have hnd' := List.nodup_cons.1 hnd
    have hc0 : c ≠ p0 := fun e => hc (by simp [e])
    have hd : ∀ q, q ∉ ps → q ∉ dsts (ps.map fun p => (Op.asg p (.div p c) : Op T)) := by
      intro q hq hm
      simp only [dsts, List.filterMap_map, List.mem_filterMap] at hm
      obtain ⟨x, hx, hx2⟩ := hm
      simp only [Function.comp, Op.dst, Option.some.injEq] at hx2
      exact hq (hx2 ▸ hx)
    intro p hp
    rcases List.mem_cons.1 hp with rfl | hp
    · rw [(exec_frame he).2 p (hd p hnd'.1)]
      simp [Heap.put, hv', Arith.fn]
    · have hne : p ≠ p0 := fun e => hnd'.1 (e ▸ hp)
      rw [ih hnd'.2 (fun hm => hc (by simp [hm])) he p hp]
      simp [Heap.put, hne, hc0]

end Godeep
