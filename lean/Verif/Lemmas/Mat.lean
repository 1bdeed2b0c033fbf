import Verif.Lemmas.Heap
/-
  Helper facts for the immediate tensor operations.
-/
namespace Godeep
open Spec GoNum

variable {T : Type}

/-- The store loop over distinct cells, when each right-hand side does not depend on the
other cells written. -/
theorem storeEach_ok {ι : Type} {f : ι → Heap T → Res (Ptr × T)} {p : ι → Ptr} {v : ι → T}
    {l : List ι} {h0 : Heap T} (hnd : (l.map p).Nodup) (hnil : ∀ i ∈ l, p i ≠ 0)
    (hf : ∀ i ∈ l, ∀ h', h'.next = h0.next → (∀ q, (∀ j ∈ l, p j ≠ p i → q ≠ p j) → h'.val q = h0.val q) →
      f i h' = .ok (p i, v i)) :
    ∃ h', Heap.storeEach f l h0 = .ok () h' ∧ h'.next = h0.next ∧
      (∀ q, q ∉ l.map p → h'.val q = h0.val q) ∧ ∀ i ∈ l, h'.val (p i) = v i := by
  suffices H : ∀ (done rest : List ι) (h : Heap T), l = done ++ rest → h.next = h0.next →
      (∀ q, q ∉ done.map p → h.val q = h0.val q) → (∀ i ∈ done, h.val (p i) = v i) →
      ∃ h', Heap.storeEach f rest h = .ok () h' ∧ h'.next = h0.next ∧
        (∀ q, q ∉ l.map p → h'.val q = h0.val q) ∧ ∀ i ∈ l, h'.val (p i) = v i from
    H [] l h0 rfl rfl (fun _ _ => rfl) (by simp)
  intro done rest
  induction rest generalizing done with
  | nil =>
    intro h hl hn hq hd
    simp only [List.append_nil] at hl
    subst hl
    exact ⟨h, rfl, hn, hq, hd⟩
  | cons i rest ih =>
    intro h hl hn hq hd
    have hi : i ∈ l := by rw [hl]; simp
    have hnd' := hnd
    rw [hl] at hnd'
    simp only [List.map_append, List.map_cons, List.nodup_append, List.nodup_cons] at hnd'
    have hfresh : p i ∉ done.map p := fun hc => hnd'.2.2 _ hc (p i) (by simp) rfl
    have hfi : f i h = .ok (p i, v i) := by
      refine hf i hi h hn ?_
      intro q hqj
      apply hq
      intro hc
      obtain ⟨j, hj, rfl⟩ := List.mem_map.1 hc
      refine hqj j (by rw [hl]; simp [hj]) ?_ rfl
      intro he
      exact hfresh (he ▸ hc)
    have hst : h.store (p i) (v i) = .ok () (h.put (p i) (v i)) := by
      simp [Heap.store, hnil i hi]
    obtain ⟨h', e1, e2, e3, e4⟩ := ih (done ++ [i]) (h.put (p i) (v i)) (by rw [hl]; simp)
      (by simpa [Heap.put] using hn)
      (by
        intro q hqd
        simp only [List.map_append, List.map_cons, List.map_nil, List.mem_append,
          List.mem_singleton, not_or] at hqd
        simp only [Heap.put, if_neg hqd.2]
        exact hq q hqd.1)
      (by
        intro j hj
        simp only [List.mem_append, List.mem_singleton] at hj
        rcases hj with hj | rfl
        · have : p j ≠ p i := fun he => hfresh (he ▸ List.mem_map_of_mem hj)
          simp only [Heap.put, if_neg this]
          exact hd j hj
        · simp [Heap.put])
    exact ⟨h', by simp only [Heap.storeEach, hfi, hst, Out.bind_ok, e1], e2, e3, e4⟩

theorem flat_length [GoNum T] (t : STensor T) : t.flat.length = size t.shape := by
  simp [STensor.flat]

theorem flat_getElem? [GoNum T] {t : STensor T} {k : Nat} (h : k < size t.shape) :
    t.flat[k]? = some (t.get (unflat t.shape k)) := by
  simp [STensor.flat, allIdx_getElem? h]

/-- flat form as a map over offsets -/
theorem flat_eq_range [GoNum T] (t : STensor T) :
    t.flat = (List.range (size t.shape)).map fun k => t.get (unflat t.shape k) := by
  simp [STensor.flat, allIdx_eq_map]

theorem ofValues_flat [GoNum T] (vs : List T) (shape : List Nat) :
    (STensor.ofValues vs shape).flat = (List.range (size shape)).map fun k => vs.getD k zero := by
  rw [flat_eq_range]
  apply List.map_congr_left
  intro k hk
  have hk' : k < size shape := List.mem_range.1 hk
  simp only [STensor.ofValues]
  rw [offset_unflat hk']

theorem holds_ops_val [GoNum T] {h : Heap T} {m : Mat} {t : STensor T} (H : Holds h m t)
    {k : Nat} (hk : k < size t.shape) :
    ∃ p, m.ops[k]? = some p ∧ Valid h p ∧ h.val p = t.get (unflat t.shape k) := by
  have hk' : k < m.ops.length := by rw [H.len, H.shape]; exact hk
  refine ⟨m.ops[k], List.getElem?_eq_getElem hk', H.valid _ (List.getElem_mem hk'), ?_⟩
  have := congrArg (fun l => l[k]?) (holds_flat H)
  simp only [List.getElem?_map, List.getElem?_eq_getElem hk', flat_getElem? hk] at this
  simpa using this

theorem holds_loadAt [GoNum T] {h h' : Heap T} {m : Mat} {t : STensor T} (H : Holds h m t)
    (he : Extends h h') {k : Nat} (hk : k < size t.shape) :
    h'.loadAt m.ops k = .ok (t.get (unflat t.shape k)) := by
  obtain ⟨p, hp, hv, hval⟩ := holds_ops_val H hk
  rw [loadAt_extends H.valid hp he, hval]

theorem holds_loadAll [GoNum T] {h h' : Heap T} {m : Mat} {t : STensor T} (H : Holds h m t)
    (he : Extends h h') : h'.loadAll m.ops = .ok t.flat := by
  rw [loadAll_extends H.valid he, holds_flat H]

theorem holds_get [GoNum T] {h h' : Heap T} {m : Mat} {t : STensor T} (H : Holds h m t)
    (he : Extends h h') {idx : List Nat} (hr : InRange t.shape idx) :
    m.get idx h' = .ok (t.get idx) := (H.extends he).get idx hr

/-- the pattern shared by the immediate operations -/
theorem alloc_newTensor [GoNum T] {f : Nat → Heap T → Res T} {h : Heap T} {shape : List Nat}
    {t : STensor T} {n : Nat} (hpos : 0 < h.next) (hs : shape = t.shape) (hn : n = size t.shape)
    (hf : ∀ k, k < size t.shape → ∀ h', Extends h h' → f k h' = .ok (t.get (unflat t.shape k))) :
    ∃ h' ops, Heap.allocEach f (List.range n) h = .ok ops h' ∧
      NewTensor h h' ⟨shape, indexMul shape, ops⟩ t := by
  obtain ⟨h', e1, e2, e3, e4⟩ := allocEach_ok (v := fun k => t.get (unflat t.shape k))
    (l := List.range n) (f := f) (h := h)
    (fun i hi h' he => hf i (by rw [← hn]; exact List.mem_range.1 hi) h' he)
  refine ⟨h', _, e1, newTensor_of_alloc hs e2 e3 hpos ?_⟩
  rw [e4, flat_eq_range, hn]

/-! index helpers -/

theorem offset_append (s1 s2 i1 i2 : List Nat) (h : i1.length = s1.length) :
    offset (s1 ++ s2) (i1 ++ i2) = offset s1 i1 * size s2 + offset s2 i2 := by
  induction s1 generalizing i1 with
  | nil =>
    cases i1 with
    | nil => simp [offset]
    | cons => simp at h
  | cons s ss ih =>
    cases i1 with
    | nil => simp at h
    | cons i is =>
      simp only [List.cons_append, offset, size_append]
      rw [ih is (by simpa using h)]; ring

theorem inRange_append {s1 s2 i1 i2 : List Nat} (h1 : InRange s1 i1) (h2 : InRange s2 i2) :
    InRange (s1 ++ s2) (i1 ++ i2) := List.rel_append h1 h2

theorem inRange_take {s i : List Nat} (h : InRange s i) (n : Nat) :
    InRange (s.take n) (i.take n) := List.forall₂_take n h

theorem inRange_drop {s i : List Nat} (h : InRange s i) (n : Nat) :
    InRange (s.drop n) (i.drop n) := List.forall₂_drop n h

theorem inRange_iff {s i : List Nat} :
    InRange s i ↔ i.length = s.length ∧ ∀ k a b : Nat, i[k]? = some a → s[k]? = some b → a < b := by
  induction s generalizing i with
  | nil =>
    rw [inRange_nil_left]
    constructor
    · rintro rfl; simp
    · intro h; simpa using h.1
  | cons x xs ih =>
    cases i with
    | nil =>
      constructor
      · intro h; have := inRange_length h; simp at this
      · intro h; simp at h
    | cons y ys =>
      rw [inRange_cons, ih]
      constructor
      · rintro ⟨h1, h2, h3⟩
        refine ⟨by simpa using h2, ?_⟩
        intro k a b ha hb
        cases k with
        | zero => simp at ha hb; omega
        | succ k => exact h3 k a b (by simpa using ha) (by simpa using hb)
      · rintro ⟨h1, h2⟩
        refine ⟨h2 0 y x (by simp) (by simp), by simpa using h1, ?_⟩
        intro k a b ha hb
        exact h2 (k + 1) a b (by simpa using ha) (by simpa using hb)

end Godeep
