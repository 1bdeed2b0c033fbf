import Verif.Lemmas.Index
import Verif.Spec.Tensor
/-
  Helper facts about cells, allocation loops and `Holds`.
-/
namespace Godeep
open Spec GoNum

variable {T : Type}

theorem _root_.Godeep.Spec.Extends.refl (h : Heap T) : Extends h h := ⟨le_refl _, fun _ _ => rfl⟩

theorem _root_.Godeep.Spec.Extends.trans {a b c : Heap T} (h1 : Extends a b) (h2 : Extends b c) : Extends a c :=
  ⟨le_trans h1.next h2.next, fun p hp => by
    rw [h2.val p (lt_of_lt_of_le hp h1.next), h1.val p hp]⟩

theorem extends_alloc (h : Heap T) (v : T) : Extends h (h.alloc v).2 :=
  ⟨by simp [Heap.alloc], fun p hp => by
    have : p ≠ h.next := by omega
    simp [Heap.alloc, this]⟩

theorem _root_.Godeep.Spec.Valid.mono {h h' : Heap T} {p : Ptr} (hv : Valid h p) (he : Extends h h') : Valid h' p :=
  ⟨hv.1, lt_of_lt_of_le hv.2 he.next⟩

theorem load_valid {h : Heap T} {p : Ptr} (hv : Valid h p) : h.load p = .ok (h.val p) := by
  have := hv.1
  simp [Heap.load]; omega

theorem load_extends {h h' : Heap T} {p : Ptr} (hv : Valid h p) (he : Extends h h') :
    h'.load p = .ok (h.val p) := by
  rw [load_valid (hv.mono he), he.val p hv.2]

theorem Res.index_eq {α : Type} {l : List α} {i : Nat} {a : α} (h : l[i]? = some a) :
    Res.index l i = .ok a := by simp [Res.index, h]

theorem loadAt_extends {h h' : Heap T} {ops : List Ptr} {i : Nat} {p : Ptr}
    (hv : ∀ p ∈ ops, Valid h p) (hi : ops[i]? = some p) (he : Extends h h') :
    h'.loadAt ops i = .ok (h.val p) := by
  unfold Heap.loadAt
  rw [Res.index_eq hi, Res.bind_ok, load_extends (hv p (List.mem_of_getElem? hi)) he]

theorem mapM_ok {α β : Type} {f : α → Res β} {g : α → β} {l : List α}
    (h : ∀ a ∈ l, f a = .ok (g a)) : Res.mapM f l = .ok (l.map g) := by
  induction l with
  | nil => rfl
  | cons a l ih =>
    simp only [Res.mapM, h a (by simp), Res.bind_ok]
    rw [ih (fun b hb => h b (by simp [hb]))]
    rfl

theorem loadAll_extends {h h' : Heap T} {ops : List Ptr}
    (hv : ∀ p ∈ ops, Valid h p) (he : Extends h h') :
    h'.loadAll ops = .ok (ops.map h.val) :=
  mapM_ok fun p hp => load_extends (hv p hp) he

/-- The allocation loop when every right-hand side is determined by the heap before the loop. -/
theorem allocEach_ok {ι : Type} {f : ι → Heap T → Res T} {v : ι → T} {l : List ι} {h : Heap T}
    (hf : ∀ i ∈ l, ∀ h', Extends h h' → f i h' = .ok (v i)) :
    ∃ h', Heap.allocEach f l h = .ok (List.range' h.next l.length) h' ∧ Extends h h' ∧
      h'.next = h.next + l.length ∧ (List.range' h.next l.length).map h'.val = l.map v := by
  induction l generalizing h with
  | nil => exact ⟨h, by simp [Heap.allocEach], Extends.refl h, by simp, by simp⟩
  | cons i l ih =>
    have h0 := hf i (by simp) h (Extends.refl h)
    have ih' := ih (h := (h.alloc (v i)).2)
      (fun j hj h' he => hf j (by simp [hj]) h' ((extends_alloc h _).trans he))
    obtain ⟨h', e1, e2, e3, e4⟩ := ih'
    refine ⟨h', ?_, (extends_alloc h _).trans e2, ?_, ?_⟩
    · simp only [Heap.allocEach, h0]
      rw [e1]
      simp [Heap.alloc, List.range'_succ]
    · rw [e3]; simp [Heap.alloc]; omega
    · have hn : (h.alloc (v i)).2.next = h.next + 1 := rfl
      rw [hn] at e4
      simp only [List.length_cons, List.range'_succ, List.map_cons]
      rw [e4]
      congr 1
      rw [e2.val h.next (by rw [hn]; omega)]
      simp [Heap.alloc]

/-- first failing right-hand side: the loop reports it -/
theorem allocEach_err {ι : Type} {f : ι → Heap T → Res T} {e : Err} {l1 : List ι} {i : ι}
    {l2 : List ι} {h : Heap T}
    (h1 : ∀ j ∈ l1, ∀ h', Extends h h' → ∃ v, f j h' = .ok v)
    (h2 : ∀ h', Extends h h' → f i h' = .err e) :
    ∃ h', Heap.allocEach f (l1 ++ i :: l2) h = .err e h' ∧ Extends h h' := by
  induction l1 generalizing h with
  | nil => exact ⟨h, by simp [Heap.allocEach, h2 h (Extends.refl h)], Extends.refl h⟩
  | cons j l1 ih =>
    obtain ⟨v, hv⟩ := h1 j (by simp) h (Extends.refl h)
    obtain ⟨h', e1, e2⟩ := ih (h := (h.alloc v).2)
      (fun k hk h' he => h1 k (by simp [hk]) h' ((extends_alloc h _).trans he))
      (fun h' he => h2 h' ((extends_alloc h _).trans he))
    exact ⟨h', by simp [Heap.allocEach, hv, e1], (extends_alloc h _).trans e2⟩

theorem allocEach_panic {ι : Type} {f : ι → Heap T → Res T} {l1 : List ι} {i : ι}
    {l2 : List ι} {h : Heap T}
    (h1 : ∀ j ∈ l1, ∀ h', Extends h h' → ∃ v, f j h' = .ok v)
    (h2 : ∀ h', Extends h h' → f i h' = .panic) :
    Heap.allocEach f (l1 ++ i :: l2) h = .panic := by
  induction l1 generalizing h with
  | nil => simp [Heap.allocEach, h2 h (Extends.refl h)]
  | cons j l1 ih =>
    obtain ⟨v, hv⟩ := h1 j (by simp) h (Extends.refl h)
    have e1 := ih (h := (h.alloc v).2)
      (fun k hk h' he => h1 k (by simp [hk]) h' ((extends_alloc h _).trans he))
      (fun h' he => h2 h' ((extends_alloc h _).trans he))
    simp [Heap.allocEach, hv, e1]

/-! ### `Holds` in flat form -/

theorem getOperand_ok {m : Mat} {idx : List Nat} {p : Ptr} (hm : m.mul = strides m.shape)
    (hr : InRange m.shape idx) (hp : m.ops[offset m.shape idx]? = some p) :
    m.getOperand idx = .ok p := by
  unfold Mat.getOperand
  rw [hm, getIndex_ok hr, Res.bind_ok]
  have : offset m.shape idx < m.ops.length := (List.getElem?_eq_some_iff.1 hp).1
  rw [if_neg (by omega), Res.index_eq hp]

theorem holds_flat [GoNum T] {h : Heap T} {m : Mat} {t : STensor T} (H : Holds h m t) :
    m.ops.map h.val = t.flat := by
  apply List.ext_getElem?
  intro k
  unfold STensor.flat
  rw [List.getElem?_map, List.getElem?_map]
  have hmul : m.mul = strides m.shape := by rw [H.mul]; simp
  by_cases hk : k < size t.shape
  · have hk' : k < m.ops.length := by rw [H.len, H.shape]; exact hk
    rw [allIdx_getElem? hk, List.getElem?_eq_getElem hk']
    have hr := unflat_inRange hk
    have hg := H.get _ hr
    unfold Mat.get at hg
    have : m.ops[offset m.shape (unflat t.shape k)]? = some m.ops[k] := by
      rw [H.shape, offset_unflat hk]; exact List.getElem?_eq_getElem hk'
    rw [getOperand_ok hmul (H.shape ▸ hr) this, Res.bind_ok,
      load_valid (H.valid _ (List.getElem_mem hk'))] at hg
    injection hg with hg
    simp [hg]
  · have : ¬ k < m.ops.length := by rw [H.len, H.shape]; exact hk
    rw [List.getElem?_eq_none (l := allIdx t.shape) (by simpa using hk), List.getElem?_eq_none (l := m.ops) (by omega)]
    rfl

theorem holds_of_flat [GoNum T] {h : Heap T} {m : Mat} {t : STensor T}
    (hs : m.shape = t.shape) (hm : m.mul = indexMul m.shape)
    (hv : ∀ p ∈ m.ops, Valid h p) (hf : m.ops.map h.val = t.flat) : Holds h m t := by
  have hlen : m.ops.length = size m.shape := by
    have := congrArg List.length hf
    simpa [STensor.flat, hs] using this
  refine ⟨hs, hm, hlen, hv, ?_⟩
  intro idx hr
  have hlt := offset_lt hr
  have hk : offset m.shape idx < m.ops.length := by rw [hlen, hs]; exact hlt
  have hp := List.getElem?_eq_getElem hk
  unfold Mat.get
  rw [getOperand_ok (by rw [hm]; simp) (hs ▸ hr) hp, Res.bind_ok,
    load_valid (hv _ (List.getElem_mem hk))]
  congr 1
  have := congrArg (fun l => l[offset m.shape idx]?) hf
  have e : (allIdx t.shape)[offset m.shape idx]? = some idx := by rw [hs]; exact allIdx_offset hr
  simp only [List.getElem?_map, STensor.flat, hp, e] at this
  simpa using this

theorem _root_.Godeep.Spec.Holds.extends [GoNum T] {h h' : Heap T} {m : Mat} {t : STensor T} (H : Holds h m t)
    (he : Extends h h') : Holds h' m t := by
  refine holds_of_flat H.shape H.mul (fun p hp => (H.valid p hp).mono he) ?_
  rw [← holds_flat H]
  exact List.map_congr_left fun p hp => he.val p (H.valid p hp).2

/-- a tensor made by an allocation loop -/
theorem newTensor_of_alloc [GoNum T] {h h' : Heap T} {shape : List Nat} {n : Nat} {t : STensor T}
    (hs : shape = t.shape) (he : Extends h h') (hn : h'.next = h.next + n)
    (hpos : 0 < h.next) (hf : (List.range' h.next n).map h'.val = t.flat) :
    NewTensor h h' ⟨shape, indexMul shape, List.range' h.next n⟩ t := by
  refine ⟨holds_of_flat hs rfl ?_ hf, he, ?_, List.nodup_range'⟩
  · intro p hp
    simp only [List.mem_range'_1] at hp
    exact ⟨by omega, by omega⟩
  · intro p hp
    simp only [List.mem_range'_1] at hp
    omega

end Godeep
