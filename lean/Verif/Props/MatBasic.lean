import Verif.Lemmas.Mat
import Mathlib.Data.List.Nodup
import Verif.Spec.Writes
/-
  C05 constructors, C06 Set, C07 Copy, C08 bulk load, C09 Bind.
  `0 < h.next` says that the nil address has not been handed out; it holds of the empty
  heap and every operation preserves it.
-/
set_option linter.unusedSectionVars false

namespace Godeep.Props
open Godeep Spec GoNum

variable {T : Type} [GoNum T]

/-! ### C05 -/

theorem C05_newZeros (shape : List Nat) (h : Heap T) (hpos : 0 < h.next) :
    ∃ r h', Mat.newZeros shape h = .ok r h' ∧ NewTensor h h' r (.const shape zero) := by
  obtain ⟨h', ops, e1, e2⟩ := alloc_newTensor (shape := shape) (t := STensor.const shape (zero : T))
    (f := fun _ _ => .ok zero) (n := dataSize shape) hpos rfl (by simp [STensor.const])
    (fun _ _ _ _ => rfl)
  exact ⟨_, h', by unfold Mat.newZeros; rw [e1]; rfl, e2⟩

theorem C05_newOnes (shape : List Nat) (h : Heap T) (hpos : 0 < h.next) :
    ∃ r h', Mat.newOnes shape h = .ok r h' ∧ NewTensor h h' r (.const shape one) := by
  obtain ⟨h', ops, e1, e2⟩ := alloc_newTensor (shape := shape) (t := STensor.const shape (one : T))
    (f := fun _ _ => .ok one) (n := dataSize shape) hpos rfl (by simp [STensor.const])
    (fun _ _ _ _ => rfl)
  exact ⟨_, h', by unfold Mat.newOnes; rw [e1]; rfl, e2⟩

/-- random constructors: whatever numbers are drawn, element `k` is the `k`-th draw -/
theorem C05_newRand (rnd : Nat → T) (shape : List Nat) (h : Heap T) (hpos : 0 < h.next) :
    ∃ r h', Mat.newRand rnd shape h = .ok r h' ∧
      NewTensor h h' r ⟨shape, fun idx => rnd (offset shape idx)⟩ := by
  obtain ⟨h', ops, e1, e2⟩ := alloc_newTensor (shape := shape)
    (t := ⟨shape, fun idx => rnd (offset shape idx)⟩)
    (f := fun i _ => .ok (rnd i)) (n := dataSize shape) hpos rfl (by simp)
    (fun k hk _ _ => by have := offset_unflat hk; simp only at this ⊢; rw [this])
  exact ⟨_, h', by unfold Mat.newRand; rw [e1]; rfl, e2⟩

/-- missing values are 0, surplus values are dropped -/
theorem C05_newFromValues (values : List T) (shape : List Nat) (h : Heap T) (hpos : 0 < h.next) :
    ∃ r h', Mat.newFromValues values shape h = .ok r h' ∧
      NewTensor h h' r (.ofValues values shape) := by
  unfold Mat.newFromValues
  simp only [dataSize_eq]
  generalize hsz : (if values.length < size shape then values.length else size shape) = sz
  have hle : sz ≤ size shape ∧ sz ≤ values.length ∧ (sz = size shape ∨ sz = values.length) := by
    split at hsz <;> omega
  obtain ⟨h1, a1, a2, a3, a4⟩ := allocEach_ok (v := fun k => values.getD k zero)
    (l := List.range sz) (f := fun i (_ : Heap T) => Res.index values i) (h := h)
    (fun i hi h' _ => by
      have : i < values.length := by have := List.mem_range.1 hi; omega
      rw [Res.index_eq (List.getElem?_eq_getElem this)]
      simp [List.getD, this])
  obtain ⟨h2, b1, b2, b3, b4⟩ := allocEach_ok (v := fun (_ : Nat) => (zero : T))
    (l := List.range' sz (size shape - sz)) (f := fun _ (_ : Heap T) => .ok zero) (h := h1)
    (fun _ _ _ _ => rfl)
  rw [a1]; simp only [Out.bind_ok]; rw [b1]; simp only [Out.map_ok]
  simp only [List.length_range, List.length_range'] at a1 a3 a4 b1 b3 b4 ⊢
  have hops : List.range' h.next sz ++ List.range' h1.next (size shape - sz) =
      List.range' h.next (size shape) := by
    rw [a3]
    have : size shape = sz + (size shape - sz) := by omega
    conv_rhs => rw [this]
    rw [← List.range'_append]; simp
  rw [hops]
  refine ⟨_, h2, rfl, newTensor_of_alloc rfl (a2.trans b2) (by rw [b3, a3]; omega) hpos ?_⟩
  rw [← hops, List.map_append, b4, ofValues_flat]
  have : (List.range' h.next sz).map h2.val = (List.range' h.next sz).map h1.val :=
    List.map_congr_left fun p hp => b2.val p (by
      simp only [List.mem_range'_1] at hp; omega)
  rw [this, a4]
  have hr : List.range (size shape) = List.range sz ++ List.range' sz (size shape - sz) := by
    have : size shape = sz + (size shape - sz) := by omega
    conv_lhs => rw [this, List.range_eq_range', ← List.range'_append]
    simp [List.range_eq_range']
  rw [hr, List.map_append]
  congr 1
  apply List.map_congr_left
  intro k hk
  simp only [List.mem_range'_1] at hk
  have : values.length ≤ k := by omega
  simp [List.getD, this]

/-- a 2×2 tensor from three values -/
example : (match Mat.newFromValues [5, 6, 7] [2, 2] (Heap.empty (0 : Int)) with
    | .ok r h => (r.shape, r.getData h) | _ => ([], .panic)) = ([2, 2], .ok [5, 6, 7, 0]) := by decide

/-! ### C06 -/

/-- a successful `Set`: `Get` at that index returns the new value, and at every index (of any
tensor `m2`) that does not address the same cell `Get` is unchanged. -/
theorem C06_set_get (m : Mat) (t : STensor T) (h : Heap T) (H : Holds h m t) (v : T)
    (idx : List Nat) (hr : InRange t.shape idx) :
    ∃ h', m.set v idx h = .ok () h' ∧ m.get idx h' = .ok v ∧
      ∀ (m2 : Mat) (idx2 : List Nat), m2.getOperand idx2 ≠ m.getOperand idx →
        m2.get idx2 h' = m2.get idx2 h := by
  have hk : offset m.shape idx < m.ops.length := by
    rw [H.len, H.shape]; exact offset_lt hr
  have hp := List.getElem?_eq_getElem hk
  have ho := getOperand_ok (by rw [H.mul]; simp) (H.shape ▸ hr) hp
  have hv := H.valid _ (List.getElem_mem hk)
  generalize m.ops[offset m.shape idx] = p at *
  refine ⟨h.put p v, ?_, ?_, ?_⟩
  · have := hv.1
    simp only [Mat.set, ho, Heap.store]; rw [if_neg (by omega)]
  · have := hv.1
    simp only [Mat.get, ho, Res.bind_ok, Heap.load, Heap.put]; rw [if_neg (by omega)]; simp
  · intro m2 idx2 hne
    unfold Mat.get
    cases h2 : m2.getOperand idx2 with
    | ok q =>
      simp only [Res.bind_ok, Heap.load, Heap.put]
      have : q ≠ p := fun he => hne (by rw [h2, ho, he])
      simp [this]
    | err e => rfl
    | panic => rfl

/-- For a tensor whose elements are distinct cells (every constructor and every operation
returning a new tensor makes one) the effect is exactly a point update. -/
theorem C06_set_updates_one (m : Mat) (t : STensor T) (h : Heap T) (H : Holds h m t)
    (hnd : m.ops.Nodup) (v : T) (idx : List Nat) (hr : InRange t.shape idx) :
    ∃ h', m.set v idx h = .ok () h' ∧
      Holds h' m ⟨t.shape, fun i => if i = idx then v else t.get i⟩ := by
  obtain ⟨h', e1, e2, e3⟩ := C06_set_get m t h H v idx hr
  have hh : ∃ p, h' = h.put p v := by
    unfold Mat.set at e1
    cases ho : m.getOperand idx with
    | ok p =>
      rw [ho] at e1
      simp only [Heap.store] at e1
      split at e1
      · cases e1
      · injection e1 with _ e1; exact ⟨p, e1.symm⟩
    | err e => rw [ho] at e1; cases e1
    | panic => rw [ho] at e1; cases e1
  obtain ⟨p, rfl⟩ := hh
  refine ⟨_, e1, H.shape, H.mul, H.len, fun q hq => H.valid q hq, ?_⟩
  intro i hi
  simp only at hi ⊢
  by_cases he : i = idx
  · subst he; rw [if_pos rfl]; exact e2
  · rw [if_neg he, e3 m i ?_, H.get i hi]
    have ki : offset m.shape i < m.ops.length := by rw [H.len, H.shape]; exact offset_lt hi
    have kx : offset m.shape idx < m.ops.length := by rw [H.len, H.shape]; exact offset_lt hr
    have hm : m.mul = strides m.shape := by rw [H.mul]; simp
    rw [getOperand_ok hm (H.shape ▸ hi) (List.getElem?_eq_getElem ki),
      getOperand_ok hm (H.shape ▸ hr) (List.getElem?_eq_getElem kx)]
    intro hc
    injection hc with hc
    have := (List.Nodup.getElem_inj_iff hnd).1 hc
    exact he (offset_inj (shape := m.shape) (H.shape ▸ hi) (H.shape ▸ hr) this)

/-- an out-of-range `Set` is an error and changes nothing -/
theorem C06_set_error (m : Mat) (t : STensor T) (h : Heap T) (H : Holds h m t) (v : T)
    (idx : List Nat) (hl : idx.length = t.shape.length) (hr : ¬ InRange t.shape idx) :
    ∃ e, m.set v idx h = .err e h := by
  have hm : m.mul = strides m.shape := by rw [H.mul]; simp
  unfold Mat.set Mat.getOperand getIndex
  rw [if_neg (by rw [hm]; simp), if_neg (by rw [H.shape]; omega)]
  cases hc : checkRange m.shape idx 0 with
  | some e => exact ⟨e, by simp⟩
  | none => exact absurd ((checkRange_none _ _ _ (by rw [H.shape]; exact hl)).1 hc) (H.shape ▸ hr)

/-! ### C07 -/

/-- `Copy` returns a new tensor with the same elements -/
theorem C07_copy (m : Mat) (t : STensor T) (h : Heap T) (H : Holds h m t) (hpos : 0 < h.next) :
    ∃ r h', m.copy h = .ok r h' ∧ NewTensor h h' r t := by
  obtain ⟨h', ops, e1, e2⟩ := alloc_newTensor (shape := m.shape) (t := t)
    (f := fun i h => h.loadAt m.ops i) (n := m.getSize) hpos H.shape
    (by rw [← H.shape]; exact H.len) (fun k hk h' he => holds_loadAt H he hk)
  exact ⟨_, h', by unfold Mat.copy; rw [e1, H.mul]; rfl, e2⟩

theorem set_frame (m : Mat) (v : T) (idx : List Nat) (h : Heap T) (q : Ptr) (hq : q ∉ m.ops) :
    (∀ u h', m.set v idx h = .ok u h' → h'.val q = h.val q ∧ h'.next = h.next) ∧
    (∀ e h', m.set v idx h = .err e h' → h' = h) := by
  unfold Mat.set
  cases ho : m.getOperand idx with
  | ok p =>
    simp only [Heap.store]
    have hmem : p ∈ m.ops := by
      unfold Mat.getOperand at ho
      cases hg : getIndex m.mul m.shape idx with
      | ok k =>
        rw [hg] at ho
        simp only [Res.bind_ok, Res.index] at ho
        split at ho
        · cases ho
        · split at ho
          · rename_i hx; injection ho with ho; subst ho; exact List.mem_of_getElem? hx
          · cases ho
      | err e => rw [hg] at ho; cases ho
      | panic => rw [hg] at ho; cases ho
    refine ⟨?_, ?_⟩
    · intro u h' he
      split at he
      · cases he
      · injection he with _ he
        subst he
        have : q ≠ p := fun hc => hq (hc ▸ hmem)
        simp [Heap.put, this]
    · intro e h' he
      split at he <;> cases he
  | err e => exact ⟨(by intro u h' he; cases he), (by intro e' h' he; injection he with _ he; exact he.symm)⟩
  | panic => exact ⟨(by intro u h' he; cases he), (by intro e' h' he; cases he)⟩

theorem afterSets_frame (m : Mat) (ws : List (T × List Nat)) (h : Heap T) (m2 : Mat)
    (t2 : STensor T) (hd : ∀ q ∈ m2.ops, q ∉ m.ops) (H : Holds h m2 t2) :
    Holds (afterSets m ws h) m2 t2 := by
  induction ws generalizing h with
  | nil => exact H
  | cons w ws ih =>
    obtain ⟨v, idx⟩ := w
    simp only [afterSets]
    cases hs : m.set v idx h with
    | ok u h' =>
      apply ih
      refine holds_of_flat H.shape H.mul ?_ ?_
      · intro p hp
        have := ((set_frame m v idx h p (hd p hp)).1 u h' hs).2
        have hv := H.valid p hp
        exact ⟨hv.1, by rw [this]; exact hv.2⟩
      · rw [← holds_flat H]
        exact List.map_congr_left fun p hp => ((set_frame m v idx h p (hd p hp)).1 u h' hs).1
    | err e h' =>
      apply ih
      by_cases hne : m2.ops = []
      · refine holds_of_flat H.shape H.mul (by rw [hne]; simp) ?_
        rw [← holds_flat H, hne]; rfl
      · obtain ⟨q, hq⟩ := List.exists_mem_of_ne_nil _ hne
        rw [(set_frame m v idx h q (hd q hq)).2 e h' hs]; exact H
    | panic => exact H

/-- after copying, any sequence of writes to the copy leaves the original's elements
alone, and any sequence of writes to the original leaves the copy's alone -/
theorem C07_copy_independent (m : Mat) (t : STensor T) (h : Heap T) (H : Holds h m t)
    (hpos : 0 < h.next) :
    ∃ r h', m.copy h = .ok r h' ∧ Holds h' r t ∧ Holds h' m t ∧
      (∀ ws, Holds (afterSets r ws h') m t) ∧ (∀ ws, Holds (afterSets m ws h') r t) := by
  obtain ⟨r, h', e, N⟩ := C07_copy m t h H hpos
  have hd : ∀ q ∈ m.ops, q ∉ r.ops := fun q hq hr => by
    have := N.fresh q hr; have := (H.valid q hq).2; omega
  refine ⟨r, h', e, N.holds, H.extends N.frame, fun ws => ?_, fun ws => ?_⟩
  · exact afterSets_frame r ws h' m t hd (H.extends N.frame)
  · exact afterSets_frame m ws h' r t (fun q hq hm => hd q hm hq) N.holds

/-! ### C08 -/

/-- `LoadData` of the right length stores the data in row-major order; `GetData` returns it -/
theorem C08_loadData (m : Mat) (t : STensor T) (h : Heap T) (H : Holds h m t) (hnd : m.ops.Nodup)
    (data : List T) (hl : data.length = m.getSize) :
    ∃ h', m.loadData data h = .ok () h' ∧ Holds h' m (.ofValues data t.shape) ∧
      m.getData h' = .ok data ∧ h'.next = h.next ∧ ∀ q, q ∉ m.ops → h'.val q = h.val q := by
  have hpd : ∀ i ∈ List.range m.ops.length, m.ops[i]? = some (m.ops.getD i 0) := by
    intro i hi
    have : i < m.ops.length := List.mem_range.1 hi
    simp [List.getD, this]
  have hmap : (List.range m.ops.length).map (fun i => m.ops.getD i 0) = m.ops := by
    apply List.ext_getElem?
    intro k
    by_cases hk : k < m.ops.length
    · simp [List.getD, hk]
    · simp [hk]
  obtain ⟨h', e1, e2, e3, e4⟩ := storeEach_ok (l := List.range m.ops.length) (h0 := h)
    (p := fun i => m.ops.getD i 0) (v := fun i => data.getD i zero)
    (f := fun i _ => (Res.index m.ops i).bind fun p => (Res.index data i).map fun v => (p, v))
    (by rw [hmap]; exact hnd)
    (fun i hi => by
      have := (H.valid _ (List.mem_of_getElem? (hpd i hi))).1
      omega)
    (fun i hi h' _ _ => by
      have hlt : i < data.length := by
        have := List.mem_range.1 hi; rw [hl]; exact this
      rw [Res.index_eq (hpd i hi), Res.index_eq (List.getElem?_eq_getElem hlt)]
      simp [List.getD, hlt])
  have hflat : m.ops.map h'.val = data := by
    apply List.ext_getElem?
    intro k
    by_cases hk : k < m.ops.length
    · have := e4 k (List.mem_range.2 hk)
      have hkd : k < data.length := by rw [hl]; exact hk
      simp only [List.getD, List.getElem?_eq_getElem hk, List.getElem?_eq_getElem hkd,
        Option.getD_some] at this
      simp [hk, hkd, this]
    · have hkd : ¬ k < data.length := by rw [hl]; exact hk
      simp [hk, hkd]
  refine ⟨h', ?_, ?_, ?_, e2, ?_⟩
  · unfold Mat.loadData
    rw [if_neg (by simp [hl]), e1]
  · refine holds_of_flat H.shape H.mul ?_ ?_
    · intro p hp
      have := H.valid p hp
      exact ⟨this.1, by rw [e2]; exact this.2⟩
    · rw [hflat, ofValues_flat]
      have : size t.shape = data.length := by rw [hl, Mat.getSize, H.len, H.shape]
      rw [this]
      apply List.ext_getElem?
      intro k
      by_cases hk : k < data.length <;> simp [List.getD, hk]
  · unfold Mat.getData Mat.getSize
    rw [mapM_ok (g := fun i => h'.val (m.ops.getD i 0))]
    · rw [← hflat]
      conv_rhs => rw [← hmap]
      simp
    · intro i hi
      have hv := H.valid _ (List.mem_of_getElem? (hpd i hi))
      unfold Heap.loadAt
      rw [Res.index_eq (hpd i hi), Res.bind_ok, load_valid ⟨hv.1, by rw [e2]; exact hv.2⟩]
  · intro q hq
    exact e3 q (by rw [hmap]; exact hq)

/-- a wrong length is an error that changes nothing -/
theorem C08_loadData_error (m : Mat) (h : Heap T) (data : List T) (hl : data.length ≠ m.getSize) :
    m.loadData data h = .err (.size data.length m.getSize) h := by
  simp [Mat.loadData, hl]

/-- `GetData` returns the elements in row-major order -/
theorem C08_getData (m : Mat) (t : STensor T) (h : Heap T) (H : Holds h m t) :
    m.getData h = .ok ((allIdx t.shape).map t.get) := by
  unfold Mat.getData Mat.getSize
  rw [mapM_ok (g := fun k => t.get (unflat t.shape k))]
  · rw [H.len, H.shape]; exact congrArg _ (flat_eq_range t).symm
  · intro i hi
    have : i < size t.shape := by rw [← H.shape, ← H.len]; exact List.mem_range.1 hi
    exact holds_loadAt H (Extends.refl h) this

/-- `LoadFromTensor` between tensors of equal shape copies all elements.  `hal`: a cell
occurring in both tensors occurs at the same position (so distinct tensors, and a tensor
with itself, are covered). -/
theorem C08_loadFromTensor (m src : Mat) (t s : STensor T) (h : Heap T) (H : Holds h m t)
    (S : Holds h src s) (hnd : m.ops.Nodup) (hs : t.shape = s.shape)
    (hal : ∀ i j p : Nat, m.ops[i]? = some p → src.ops[j]? = some p → i = j) :
    ∃ h', m.loadFromTensor src h = .ok () h' ∧ Holds h' m s ∧ Holds h' src s ∧
      h'.next = h.next ∧ ∀ q, q ∉ m.ops → h'.val q = h.val q := by
  have hlen : m.ops.length = src.ops.length := by rw [H.len, S.len, H.shape, S.shape, hs]
  have hpd : ∀ i < m.ops.length, m.ops[i]? = some (m.ops.getD i 0) := by
    intro i hi; simp [List.getD, hi]
  have hps : ∀ i < m.ops.length, src.ops[i]? = some (src.ops.getD i 0) := by
    intro i hi; rw [hlen] at hi; simp [List.getD, hi]
  have hmap : (List.range src.ops.length).map (fun i => m.ops.getD i 0) = m.ops := by
    apply List.ext_getElem?
    intro k
    by_cases hk : k < m.ops.length
    · have hk2 := hk; rw [hlen] at hk2
      simp [List.getD, hk, hk2]
    · have hk2 := hk; rw [hlen] at hk2
      simp [hk, hk2]
  obtain ⟨h', e1, e2, e3, e4⟩ := storeEach_ok (l := List.range src.ops.length) (h0 := h)
    (p := fun i => m.ops.getD i 0) (v := fun i => h.val (src.ops.getD i 0))
    (f := fun i h => (Res.index m.ops i).bind fun p => (h.loadAt src.ops i).map fun v => (p, v))
    (by rw [hmap]; exact hnd)
    (fun i hi => by
      have hi' : i < m.ops.length := by rw [hlen]; exact List.mem_range.1 hi
      have := (H.valid _ (List.mem_of_getElem? (hpd i hi'))).1
      omega)
    (fun i hi h' hn hq => by
      have hi' : i < m.ops.length := by rw [hlen]; exact List.mem_range.1 hi
      have hsv := S.valid _ (List.mem_of_getElem? (hps i hi'))
      unfold Heap.loadAt
      rw [Res.index_eq (hpd i hi'), Res.index_eq (hps i hi')]
      simp only [Res.bind_ok]
      rw [load_valid ⟨hsv.1, by rw [hn]; exact hsv.2⟩, hq]
      · rfl
      · intro j hj hne hc
        have hj' : j < m.ops.length := by rw [hlen]; exact List.mem_range.1 hj
        have := hal j i _ (hpd j hj') (hc ▸ hps i hi')
        exact hne (by rw [this]))
  have hm : m.ops.map h'.val = src.ops.map h.val := by
    apply List.ext_getElem?
    intro k
    by_cases hk : k < m.ops.length
    · have hk2 := hk; rw [hlen] at hk2
      have := e4 k (List.mem_range.2 hk2)
      simp only [List.getD, List.getElem?_eq_getElem hk, List.getElem?_eq_getElem hk2,
        Option.getD_some] at this
      simp [hk, hk2, this]
    · have hk2 := hk; rw [hlen] at hk2
      simp [hk, hk2]
  refine ⟨h', ?_, ?_, ?_, e2, ?_⟩
  · unfold Mat.loadFromTensor
    rw [eqShapeErr_none.2 (by rw [H.shape, S.shape, hs])]
    exact e1
  · refine holds_of_flat (by rw [H.shape, hs]) H.mul ?_ ?_
    · intro p hp
      have := H.valid p hp
      exact ⟨this.1, by rw [e2]; exact this.2⟩
    · rw [hm, holds_flat S]
  · refine holds_of_flat S.shape S.mul ?_ ?_
    · intro p hp
      have := S.valid p hp
      exact ⟨this.1, by rw [e2]; exact this.2⟩
    · rw [← holds_flat S]
      apply List.map_congr_left
      intro p hp
      by_cases hpm : p ∈ m.ops
      · obtain ⟨i, hi, rfl⟩ := List.mem_iff_getElem.1 hpm
        obtain ⟨j, hj, hje⟩ := List.mem_iff_getElem.1 hp
        have : i = j := hal i j m.ops[i] (List.getElem?_eq_getElem hi)
          (by rw [← hje]; exact List.getElem?_eq_getElem hj)
        subst this
        have := e4 i (List.mem_range.2 hj)
        simp only [List.getD, List.getElem?_eq_getElem hi, List.getElem?_eq_getElem hj,
          Option.getD_some] at this
        rw [this, hje]
      · exact e3 p (by rw [hmap]; exact hpm)
  · intro q hq
    exact e3 q (by rw [hmap]; exact hq)

/-- different shapes: an error that changes nothing -/
theorem C08_loadFromTensor_error (m src : Mat) (h : Heap T) (hs : m.shape ≠ src.shape) :
    ∃ e, m.loadFromTensor src h = .err e h := by
  unfold Mat.loadFromTensor
  cases he : eqShapeErr m.shape src.shape with
  | some e => exact ⟨e, rfl⟩
  | none => exact absurd (eqShapeErr_none.1 he) hs

/-! ### C09 -/

/-- After `Bind`, flat positions below both lengths hold the argument's cell, later
positions keep their own; the number of elements, shape and strides stay. -/
theorem C09_bind_cells (m t : Mat) :
    (m.bind t).shape = m.shape ∧ (m.bind t).mul = m.mul ∧
    (m.bind t).ops.length = m.ops.length ∧
    (∀ k, k < m.ops.length → k < t.ops.length → (m.bind t).ops[k]? = t.ops[k]?) ∧
    (∀ k, t.ops.length ≤ k → (m.bind t).ops[k]? = m.ops[k]?) := by
  refine ⟨rfl, rfl, ?_, ?_, ?_⟩
  · simp only [Mat.bind, List.length_append, List.length_take, List.length_drop]; omega
  · intro k h1 h2
    simp only [Mat.bind]
    rw [List.getElem?_append_left (by simp; omega), List.getElem?_take_of_lt h1]
  · intro k hk
    simp only [Mat.bind]
    by_cases hm : k < m.ops.length
    · rw [List.getElem?_append_right (by simp; omega), List.getElem?_drop]
      congr 1; simp; omega
    · rw [List.getElem?_eq_none (by simp; omega), List.getElem?_eq_none (by omega)]

/-- so binding to a tensor of the same shape makes every index address the same cell, and
each write through one is read through the other -/
theorem C09_bind_shared (m t : Mat) (hs : m.shape = t.shape) (hm : m.mul = t.mul)
    (hl : m.ops.length = t.ops.length) (idx : List Nat) (h : Heap T) (v : T) :
    (m.bind t).getOperand idx = t.getOperand idx ∧
    (m.bind t).set v idx h = t.set v idx h ∧ (m.bind t).get idx h = t.get idx h := by
  have : m.bind t = t := by
    obtain ⟨s, mu, o⟩ := m
    obtain ⟨s', mu', o'⟩ := t
    simp only [Mat.bind] at *
    subst hs; subst hm
    rw [hl, List.take_length, List.drop_eq_nil_of_le (by omega)]; simp
  rw [this]; exact ⟨rfl, rfl, rfl⟩

example : (⟨[2, 2], [2, 1], [1, 2, 3, 4]⟩ : Mat).bind ⟨[3], [1], [7, 8, 9]⟩ =
    ⟨[2, 2], [2, 1], [7, 8, 9, 4]⟩ := by decide

end Godeep.Props
