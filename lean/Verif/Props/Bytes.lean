import Verif.Lemmas.Bytes
import Verif.Spec.Save
import Verif.Lemmas.Mat
/-
  C32, C33, C34, C60: saving tensors to a byte stream and loading them back.
-/
set_option linter.unusedSectionVars false

namespace Godeep.Props
open Godeep Spec GoNum

variable {T : Type} [GoNum T] [Bin T]

theorem flatMap_encode_length (vs : List T) :
    (vs.flatMap Bin.encode).length = Bin.width T * vs.length := by
  induction vs with
  | nil => rfl
  | cons v vs ih => simp [ih, Bin.encode_length, Nat.mul_add, Nat.add_comm]

theorem flatMap_encode_drop (vs : List T) (k : Nat) :
    (vs.flatMap Bin.encode).drop (Bin.width T * k) = (vs.drop k).flatMap Bin.encode := by
  induction vs generalizing k with
  | nil => simp
  | cons v vs ih =>
    cases k with
    | zero => simp
    | succ k =>
      rw [List.flatMap_cons, List.drop_succ_cons, ← ih, Nat.mul_succ, Nat.add_comm,
        ← List.drop_drop, List.drop_left' (Bin.encode_length v)]

theorem flatMap_encode_getElem? (vs : List T) {k j : Nat} {v : T} (hk : vs[k]? = some v)
    (hj : j < Bin.width T) :
    (vs.flatMap Bin.encode)[Bin.width T * k + j]?
      = some (BitVec.ofNat 8 ((Bin.bits v).toNat / 256 ^ j)) := by
  obtain ⟨hk', rfl⟩ := List.getElem?_eq_some_iff.1 hk
  rw [← List.getElem?_drop, flatMap_encode_drop, List.drop_eq_getElem_cons hk', List.flatMap_cons,
    List.getElem?_append_left (by rw [Bin.encode_length]; exact hj)]
  simp only [Bin.encode, List.getElem?_map, List.getElem?_range hj, Option.map_some]
  rw [BitVec.extractLsb', Nat.shiftRight_eq_div_pow, pow_mul]
  norm_num

theorem encodes_flat (t : STensor T) : Encodes t (t.flat.flatMap Bin.encode) := by
  refine ⟨by rw [flatMap_encode_length, flat_length], ?_⟩
  intro idx hr j hj
  apply flatMap_encode_getElem? _ _ hj
  rw [STensor.flat, List.getElem?_map, allIdx_offset hr]
  rfl

theorem encodes_unique {t : STensor T} {b b' : List Byte} (h : Encodes t b) (h' : Encodes t b') :
    b = b' := by
  have hw := Bin.width_pos (T := T)
  apply List.ext_getElem?
  intro i
  by_cases hi : i < Bin.width T * size t.shape
  · have hk : i / Bin.width T < size t.shape := Nat.div_lt_of_lt_mul hi
    have h1 := h.2 _ (unflat_inRange hk) (i % Bin.width T) (Nat.mod_lt _ hw)
    have h2 := h'.2 _ (unflat_inRange hk) (i % Bin.width T) (Nat.mod_lt _ hw)
    rw [offset_unflat hk, Nat.div_add_mod] at h1 h2
    rw [h1, h2]
  · rw [List.getElem?_eq_none (by rw [h.1]; omega), List.getElem?_eq_none (by rw [h'.1]; omega)]

theorem ops_ne_zero {h : Heap T} {m : Mat} {t : STensor T} (H : Holds h m t) : ∀ p ∈ m.ops, p ≠ 0 :=
  fun p hp => by have := (H.valid p hp).1; omega

theorem ops_flatMap {h : Heap T} {m : Mat} {t : STensor T} (H : Holds h m t) :
    (m.ops.flatMap fun p => Bin.encode (h.val p)) = t.flat.flatMap Bin.encode := by
  rw [← holds_flat H, List.flatMap_map]

/-- `Save` into a writer that does not fail: appends exactly the tensor's bytes. -/
theorem C32_save (hf : Bin.fixed T = true) (h : Heap T) (m : Mat) (t : STensor T) (H : Holds h m t)
    (w : List Byte) :
    ∃ bytes, m.save h ⟨w, none⟩ = .ok () ⟨w ++ bytes, none⟩ ∧ Encodes t bytes := by
  refine ⟨t.flat.flatMap Bin.encode, ?_, encodes_flat t⟩
  rw [Mat.save, Mat.saveOps_ok hf (ops_ne_zero H), ops_flatMap H]

/-- `Load` of a saved tensor into a tensor `m` of the same number of elements and distinct cells:
it succeeds, consumes exactly the bytes written, the elements become those of the saved tensor (in
row-major order), and nothing else changes. -/
theorem C32_load (hf : Bin.fixed T = true) (t : STensor T) (bytes : List Byte) (hb : Encodes t bytes)
    (h : Heap T) (m : Mat) (u : STensor T) (H : Holds h m u) (hnd : m.ops.Nodup)
    (hsize : size u.shape = size t.shape) (rest : List Byte) :
    ∃ h', m.load h (bytes ++ rest) = .ok () (h', rest) ∧ Holds h' m (t.reshape u.shape) ∧
      h'.next = h.next ∧ ∀ q, q ∉ m.ops → h'.val q = h.val q := by
  obtain rfl := encodes_unique hb (encodes_flat t)
  have hl : t.flat.length = m.ops.length := by rw [flat_length, H.len, H.shape, hsize]
  refine ⟨_, by rw [Mat.load]; exact Mat.loadOps_encoded hf (ops_ne_zero H) hl h rest, ?_,
    Mat.foldl_put_next _ _, ?_⟩
  · refine holds_of_flat H.shape H.mul ?_ ?_
    · intro p hp
      have := H.valid p hp
      exact ⟨this.1, by rw [Mat.foldl_put_next]; exact this.2⟩
    · rw [STensor.reshape, ofValues_flat]
      apply List.ext_getElem?
      intro k
      rw [List.getElem?_map, List.getElem?_map]
      by_cases hk : k < m.ops.length
      · have hp := List.getElem?_eq_getElem hk
        have hk2 : k < size u.shape := by rw [H.len, H.shape] at hk; exact hk
        rw [hp, List.getElem?_range hk2, Option.map_some, Option.map_some, Mat.foldl_put_zip hnd _ _ hp]
        simp only [List.getD_eq_getElem?_getD, List.getElem?_eq_getElem (hl ▸ hk : k < t.flat.length),
          Option.getD_some]
      · have hk2 : ¬ k < size u.shape := by rw [H.len, H.shape] at hk; exact hk
        rw [List.getElem?_eq_none (by omega), List.getElem?_eq_none (by simp; omega)]
        rfl
  · intro q hq
    refine Mat.foldl_put_other _ _ ?_
    rintro ⟨p, v⟩ hx rfl
    exact hq (List.of_mem_zip hx).1

/-- Reloading a tensor from its own saved bytes restores it, whatever happened to its elements in
between, even if some of its elements share a cell. -/
theorem C32_reload (hf : Bin.fixed T = true) (h0 h : Heap T) (m : Mat) (t : STensor T)
    (H0 : Holds h0 m t) (hnext : h0.next ≤ h.next) (rest : List Byte) :
    ∃ bytes, m.save h0 ⟨[], none⟩ = .ok () ⟨bytes, none⟩ ∧
    ∃ h', m.load h (bytes ++ rest) = .ok () (h', rest) ∧ Holds h' m t ∧
      h'.next = h.next ∧ ∀ q, q ∉ m.ops → h'.val q = h.val q := by
  obtain ⟨bytes, hs, hb⟩ := C32_save hf h0 m t H0 []
  refine ⟨bytes, by simpa using hs, ?_⟩
  obtain rfl := encodes_unique hb (encodes_flat t)
  have hl : t.flat.length = m.ops.length := by rw [flat_length, H0.len, H0.shape]
  refine ⟨_, by rw [Mat.load]; exact Mat.loadOps_encoded hf (ops_ne_zero H0) hl h rest, ?_,
    Mat.foldl_put_next _ _, ?_⟩
  · refine holds_of_flat H0.shape H0.mul ?_ ?_
    · intro p hp
      have := H0.valid p hp
      exact ⟨this.1, by rw [Mat.foldl_put_next]; exact lt_of_lt_of_le this.2 hnext⟩
    · rw [← holds_flat H0]
      apply List.map_congr_left
      intro p hp
      obtain ⟨k, hk⟩ := List.mem_iff_getElem?.1 hp
      refine Mat.foldl_put_eq _ _ (List.mem_iff_getElem?.2 ⟨k, ?_⟩) ?_
      · rw [List.getElem?_zip_eq_some, List.getElem?_map, hk]
        exact ⟨rfl, rfl⟩
      · intro w hw
        obtain ⟨j, hj⟩ := List.mem_iff_getElem?.1 hw
        rw [List.getElem?_zip_eq_some, List.getElem?_map] at hj
        obtain ⟨h1, h2⟩ := hj
        simp only at h1 h2
        rw [h1] at h2
        exact (Option.some.inj h2).symm
  · intro q hq
    refine Mat.foldl_put_other _ _ ?_
    rintro ⟨p, v⟩ hx rfl
    exact hq (List.of_mem_zip hx).1

/-- For an element type without a fixed size (`int`), saving a non-empty tensor fails and writes
nothing, and loading one fails, reads nothing and changes nothing. -/
theorem C32_int (hf : Bin.fixed T = false) (h : Heap T) (m : Mat) (t : STensor T) (H : Holds h m t)
    (hne : size t.shape ≠ 0) (w : Sink) (r : List Byte) :
    (∃ e, m.save h w = .err e w) ∧ ∃ e, m.load h r = .err e (h, r) := by
  have hl : m.ops.length ≠ 0 := by rw [H.len, H.shape]; exact hne
  obtain ⟨shape, mul, ops⟩ := m
  simp only at hl
  cases ops with
  | nil => simp at hl
  | cons p ps =>
    have hp : p ≠ 0 := ops_ne_zero H p (by simp)
    refine ⟨⟨.other "not fixed-size", ?_⟩, ⟨.other "invalid type", ?_⟩⟩
    · simp only [Mat.save, Mat.saveOps, Heap.load, hp, if_false, Sink.put, hf, Bool.false_eq_true,
        Out.bind_err]
    · simp only [Mat.load, Mat.loadOps, hp, if_false, readElem, hf, Bool.false_eq_true]

/-- Saving into a writer with room for `n` more bytes: an error exactly if the tensor needs more,
and then the writer has received exactly the first `n` bytes. -/
theorem C60_save_short (hf : Bin.fixed T = true) (h : Heap T) (m : Mat) (t : STensor T)
    (H : Holds h m t) (w : List Byte) (n : Nat) :
    ∃ bytes, Encodes t bytes ∧
      (bytes.length ≤ n → m.save h ⟨w, some n⟩ = .ok () ⟨w ++ bytes, some (n - bytes.length)⟩) ∧
      (n < bytes.length → ∃ e, m.save h ⟨w, some n⟩ = .err e ⟨w ++ bytes.take n, some 0⟩) := by
  refine ⟨_, encodes_flat t, ?_⟩
  have := Mat.saveOps_room hf (h := h) (ops_ne_zero H) w n
  simp only [ops_flatMap H] at this
  rw [Mat.save, this]
  refine ⟨fun h1 => by rw [if_pos h1], fun h1 => ⟨_, by rw [if_neg (by omega)]⟩⟩

/-- Loading from any stream `r`.  With enough bytes it succeeds and consumes exactly what it needs.
With too few it returns an error with the whole stream consumed.  Either way the elements for which
all bytes are there get the value read, and the others keep their old value. -/
theorem C34_load_any (hf : Bin.fixed T = true) (h : Heap T) (m : Mat) (t : STensor T)
    (H : Holds h m t) (hnd : m.ops.Nodup) (r : List Byte) :
    ∃ h', (Bin.width T * size t.shape ≤ r.length →
        m.load h r = .ok () (h', r.drop (Bin.width T * size t.shape))) ∧
      (r.length < Bin.width T * size t.shape → ∃ e, m.load h r = .err e (h', [])) ∧
      Holds h' m ⟨t.shape, fun idx =>
        if Bin.width T * (offset t.shape idx + 1) ≤ r.length then
          Bin.decode ((r.drop (Bin.width T * offset t.shape idx)).take (Bin.width T))
        else t.get idx⟩ ∧
      h'.next = h.next ∧ ∀ q, q ∉ m.ops → h'.val q = h.val q := by
  have hw := Bin.width_pos (T := T)
  have hl : m.ops.length = size t.shape := by rw [H.len, H.shape]
  have key := Mat.loadOps_any hf (ops_ne_zero H) h r
  simp only [hl] at key
  refine ⟨(m.ops.zip ((List.range (Nat.min (size t.shape) (r.length / Bin.width T))).map
      fun i => (Mat.chunk r i : T))).foldl (fun h pv => h.put pv.1 pv.2) h,
    fun hc => ?_, fun hc => ?_, ?_, Mat.foldl_put_next _ _, ?_⟩
  · rw [if_pos hc] at key
    exact key
  · rw [if_neg (by omega)] at key
    exact key
  · refine holds_of_flat H.shape H.mul ?_ ?_
    · intro p hp
      have := H.valid p hp
      exact ⟨this.1, by rw [Mat.foldl_put_next]; exact this.2⟩
    · apply List.ext_getElem?
      intro k
      by_cases hk : k < size t.shape
      · obtain ⟨p, hp, hvp, hval⟩ := holds_ops_val H hk
        rw [List.getElem?_map, hp, Option.map_some, Mat.foldl_put_zip hnd _ _ hp]
        refine Eq.trans ?_ (Eq.symm (flat_getElem? (by exact hk)))
        simp only [offset_unflat hk]
        congr 1
        have hd : Bin.width T * (k + 1) ≤ r.length ↔ k < r.length / Bin.width T := by
          rw [Nat.lt_iff_add_one_le, Nat.le_div_iff_mul_le hw, Nat.mul_comm]
        by_cases hk2 : k < r.length / Bin.width T
        · rw [if_pos (hd.2 hk2), List.getD_eq_getElem?_getD, List.getElem?_map,
            List.getElem?_range (by show _ < min _ _; omega)]
          rfl
        · rw [if_neg (fun h => hk2 (hd.1 h)), List.getD_eq_getElem?_getD,
            List.getElem?_eq_none (by
              rw [List.length_map, List.length_range]
              show min _ _ ≤ _
              omega), Option.getD_none, hval]
      · rw [List.getElem?_eq_none (by rw [List.length_map]; omega),
          List.getElem?_eq_none (by rw [flat_length]; exact Nat.le_of_not_lt hk)]
  · intro q hq
    refine Mat.foldl_put_other _ _ ?_
    rintro ⟨p, v⟩ hx rfl
    exact hq (List.of_mem_zip hx).1

/-- Loading a saved tensor that was cut off after `n` bytes: an error; the elements that were
completely written are restored, the others keep their old value. -/
theorem C34_truncated (hf : Bin.fixed T = true) (t : STensor T) (bytes : List Byte)
    (hb : Encodes t bytes) (n : Nat) (hn : n < bytes.length) (h : Heap T) (m : Mat) (u : STensor T)
    (H : Holds h m u) (hnd : m.ops.Nodup) (hs : u.shape = t.shape) :
    ∃ e h', m.load h (bytes.take n) = .err e (h', []) ∧
      Holds h' m ⟨t.shape, fun idx =>
        if Bin.width T * (offset t.shape idx + 1) ≤ n then t.get idx else u.get idx⟩ ∧
      h'.next = h.next ∧ ∀ q, q ∉ m.ops → h'.val q = h.val q := by
  obtain ⟨h', -, h2, h3, h4, h5⟩ := C34_load_any hf h m u H hnd (bytes.take n)
  have hlen : (bytes.take n).length = n := by rw [List.length_take]; omega
  obtain ⟨e, he⟩ := h2 (by rw [hlen, hs, ← hb.1]; exact hn)
  refine ⟨e, h', he, ?_, h4, h5⟩
  rw [hlen] at h3
  refine ⟨h3.shape.trans hs, h3.mul, h3.len, h3.valid, ?_⟩
  intro idx hr
  rw [h3.get idx (by rw [hs]; exact hr)]
  simp only [hs]
  congr 1
  split
  next hle =>
    obtain rfl := encodes_unique hb (encodes_flat t)
    have hk := offset_lt hr
    rw [List.drop_take, flatMap_encode_drop, List.take_take,
      Nat.min_eq_left (by rw [Nat.mul_add, Nat.mul_one] at hle; omega),
      List.drop_eq_getElem_cons (by rw [flat_length]; exact hk), List.flatMap_cons,
      List.take_left' (Bin.encode_length _), Bin.decode_encode]
    have := flat_getElem? (t := t) hk
    rw [List.getElem?_eq_getElem (by rw [flat_length]; exact hk), unflat_offset hr] at this
    exact Option.some.inj this
  next => rfl

/-- The round trip through `SaveFull` and `LoadFull`, as one would want it. -/
def FullRoundTrip (T : Type) [GoNum T] [Bin T] : Prop :=
  ∀ (h : Heap T) (m : Mat) (t : STensor T), Holds h m t →
    ∃ bytes, m.saveFull h ⟨[], none⟩ = .ok () ⟨bytes, none⟩ ∧
      ∀ (m2 : Mat), ∃ h' m', m2.loadFull h bytes = .ok () (h', [], m') ∧ Holds h' m' t

/-- `SaveFull` always fails, and writes nothing. -/
theorem C33_saveFull_fails_partial (h : Heap T) (m : Mat) (w : Sink) :
    ∃ e, m.saveFull h w = .err e w := ⟨_, rfl⟩

/-- `LoadFull` always fails; it reads nothing and changes neither the tensor nor any element. -/
theorem C33_loadFull_fails_partial (h : Heap T) (m : Mat) (r : List Byte) :
    ∃ e, m.loadFull h r = .err e (h, r, m) := ⟨_, rfl⟩

/-- Hence there is no round trip, for any element type. -/
theorem C33_no_round_trip : ¬ FullRoundTrip T := by
  intro hrt
  have H : Holds (⟨fun _ => zero, 2⟩ : Heap T) ⟨[], indexMul [], [1]⟩ ⟨[], fun _ => zero⟩ := by
    refine holds_of_flat rfl rfl ?_ rfl
    intro p hp
    simp only [List.mem_singleton] at hp
    subst hp
    exact ⟨by decide, by show 1 < 2; decide⟩
  obtain ⟨bytes, h1, -⟩ := hrt _ _ _ H
  obtain ⟨e, he⟩ := C33_saveFull_fails_partial (⟨fun _ => zero, 2⟩ : Heap T) ⟨[], indexMul [], [1]⟩ ⟨[], none⟩
  rw [he] at h1
  cases h1

/-! ### Concrete cases -/

/-- a 2×2 tensor of `int16` in a heap with other cells -/
def exHeap : Heap (BitVec 16) := ⟨fun p => BitVec.ofNat 16 (1000 * p), 8⟩
def exMat : Mat := ⟨[2, 2], [2, 1], [3, 4, 5, 6]⟩
def exTensor : STensor (BitVec 16) := ⟨[2, 2], fun i => BitVec.ofNat 16 (1000 * (3 + offset [2, 2] i))⟩

theorem exHolds : Holds exHeap exMat exTensor :=
  holds_of_flat rfl rfl (by unfold exMat Valid exHeap; decide) (by decide +kernel)

example : exMat.save exHeap ⟨[7], none⟩
    = .ok () ⟨[7, 0xB8, 0x0B, 0xA0, 0x0F, 0x88, 0x13, 0x70, 0x17], none⟩ := by rfl

example := C32_load rfl exTensor _ (encodes_flat exTensor) exHeap exMat exTensor exHolds (by decide) rfl [1, 2]
example := C32_reload rfl exHeap exHeap exMat exTensor exHolds (Nat.le_refl _) [1]
example := C60_save_short rfl exHeap exMat exTensor exHolds [] 5
example := C34_load_any rfl exHeap exMat exTensor exHolds (by decide) [1, 2, 3]
example := C34_truncated rfl exTensor _ (encodes_flat exTensor) 5 (by decide +kernel) exHeap exMat exTensor
  exHolds (by decide) rfl

/-- the same with `fixed := false`, as for `int` -/
structure PlatformInt where
  v : BitVec 64

instance : GoNum PlatformInt where
  zero := ⟨0⟩
  one := ⟨1⟩
  add a b := ⟨a.v + b.v⟩
  sub a b := ⟨a.v - b.v⟩
  mul a b := ⟨a.v * b.v⟩
  div a b := ⟨BitVec.sdiv a.v b.v⟩
  neg a := ⟨-a.v⟩
  divPanics _ b := b.v == 0
  lt a b := decide (a.v.toInt < b.v.toInt)
  eq a b := a.v == b.v
  ofNat n := ⟨BitVec.ofNat 64 n⟩

instance : Bin PlatformInt where
  fixed := false
  width := 8
  bits x := x.v
  ofBits x := ⟨x⟩
  ofBits_bits _ := rfl
  width_pos := by decide

example := C32_int (T := PlatformInt) rfl ⟨fun _ => ⟨0⟩, 8⟩ ⟨[2], [1], [3, 4]⟩ ⟨[2], fun _ => ⟨0⟩⟩
  (holds_of_flat rfl rfl (by unfold Valid; decide) (by rfl)) (by decide)

end Godeep.Props
