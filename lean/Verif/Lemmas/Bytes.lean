import Verif.Model.Bytes
import Verif.Lemmas.Heap
import Mathlib.Tactic.Ring
import Mathlib.Data.List.Nodup
/-
  Lemmas about little-endian encoding and about the save and load loops.
-/
set_option linter.unusedSectionVars false

namespace Godeep
open Godeep.Spec

namespace Bin
variable {T : Type} [Bin T]

theorem encode_length (x : T) : (encode x).length = width T := by simp [encode]

theorem digits_range (n : Nat) (v : Nat) :
    digits ((List.range n).map fun i => BitVec.ofNat 8 (v / 2 ^ (8 * i))) = v % 2 ^ (8 * n) := by
  induction n generalizing v with
  | zero => simp [digits, Nat.mod_one]
  | succ n ih =>
    rw [List.range_succ_eq_map, List.map_cons, List.map_map, digits]
    have h : ((List.range n).map ((fun i => BitVec.ofNat 8 (v / 2 ^ (8 * i))) ∘ Nat.succ))
        = (List.range n).map fun i => BitVec.ofNat 8 (v / 256 / 2 ^ (8 * i)) := by
      apply List.map_congr_left
      intro i _
      simp only [Function.comp]
      rw [Nat.div_div_eq_div_mul]
      congr 2
      rw [show 8 * i.succ = 8 + 8 * i by rw [Nat.succ_eq_add_one]; ring, pow_add]
      norm_num
    rw [h, ih, BitVec.toNat_ofNat, show 8 * (n + 1) = 8 + 8 * n by ring, pow_add, Nat.mod_mul]
    simp

theorem decode_encode (x : T) : decode (encode x) = x := by
  unfold decode encode
  have h : ((List.range (width T)).map fun i => (bits x).extractLsb' (8 * i) 8)
      = (List.range (width T)).map fun i => BitVec.ofNat 8 ((bits x).toNat / 2 ^ (8 * i)) := by
    apply List.map_congr_left
    intro i _
    rw [BitVec.extractLsb', Nat.shiftRight_eq_div_pow]
  rw [h, digits_range, Nat.mod_eq_of_lt (bits x).isLt, BitVec.ofNat_toNat, BitVec.setWidth_eq]
  exact ofBits_bits x

end Bin

variable {T : Type} [Bin T]

theorem readElem_append (hf : Bin.fixed T = true) (x : T) (r : List Byte) :
    readElem T (Bin.encode x ++ r) = .ok x r := by
  have hl := Bin.encode_length x
  simp only [readElem, hf, if_true, readFull, List.length_append, hl, Nat.le_add_right]
  rw [List.take_left' hl, List.drop_left' hl, Out.map_ok, Bin.decode_encode]

theorem readElem_short (hf : Bin.fixed T = true) {r : List Byte} (h : r.length < Bin.width T) :
    ∃ e, readElem T r = .err e [] := by
  simp only [readElem, hf, if_true, readFull, Nat.not_le.2 h, if_false, Out.map_err]
  exact ⟨_, rfl⟩

namespace Mat

/-- a writer that never fails receives the encodings in order -/
theorem saveOps_ok (hf : Bin.fixed T = true) {h : Heap T} {ops : List Ptr} (hv : ∀ p ∈ ops, p ≠ 0)
    (w : List Byte) :
    saveOps h ops ⟨w, none⟩ = .ok () ⟨w ++ ops.flatMap fun p => Bin.encode (h.val p), none⟩ := by
  induction ops generalizing w with
  | nil => simp [saveOps]
  | cons p ps ih =>
    have hp : p ≠ 0 := hv p (by simp)
    simp only [saveOps, Heap.load, hp, if_false, Sink.put, hf, if_true, Sink.write, Out.bind_ok]
    rw [ih (fun q hq => hv q (by simp [hq]))]
    simp

/-- a writer that fails has received a prefix -/
theorem saveOps_room (hf : Bin.fixed T = true) {h : Heap T} {ops : List Ptr} (hv : ∀ p ∈ ops, p ≠ 0)
    (w : List Byte) (n : Nat) :
    let bytes := ops.flatMap fun p => Bin.encode (h.val p)
    saveOps h ops ⟨w, some n⟩ =
      if bytes.length ≤ n then .ok () ⟨w ++ bytes, some (n - bytes.length)⟩
      else .err (.other "write failed") ⟨w ++ bytes.take n, some 0⟩ := by
  induction ops generalizing w n with
  | nil => simp [saveOps]
  | cons p ps ih =>
    have hp : p ≠ 0 := hv p (by simp)
    have ih := ih (fun q hq => hv q (by simp [hq]))
    simp only at ih ⊢
    simp only [saveOps, Heap.load, hp, if_false, Sink.put, hf, if_true, Sink.write, List.flatMap_cons,
      List.length_append]
    by_cases h1 : (Bin.encode (h.val p)).length ≤ n
    · simp only [h1, if_true, Out.bind_ok]
      rw [ih]
      by_cases h2 : (Bin.encode (h.val p)).length
          + (ps.flatMap fun p => Bin.encode (h.val p)).length ≤ n
      · rw [if_pos h2, if_pos (by omega)]
        simp only [List.append_assoc]
        congr 3
        omega
      · rw [if_neg h2, if_neg (by omega), List.append_assoc]
        congr 3
        rw [List.take_append, List.take_of_length_le h1]
    · simp only [h1, if_false, Out.bind_err]
      rw [if_neg (by omega), List.take_append_of_le_length (by omega)]

/-- loading: the first values go to the first cells, in order -/
theorem loadOps_encoded (hf : Bin.fixed T = true) {ops : List Ptr} (hv : ∀ p ∈ ops, p ≠ 0)
    {vs : List T} (hl : vs.length = ops.length) (h : Heap T) (r : List Byte) :
    loadOps ops (h, vs.flatMap Bin.encode ++ r)
      = .ok () ((ops.zip vs).foldl (fun h pv => h.put pv.1 pv.2) h, r) := by
  induction ops generalizing vs h with
  | nil =>
    have : vs = [] := List.length_eq_zero_iff.1 (by simpa using hl)
    subst this
    simp [loadOps]
  | cons p ps ih =>
    match vs, hl with
    | v :: vs, hl =>
      have hp : p ≠ 0 := hv p (by simp)
      rw [loadOps, if_neg hp, List.flatMap_cons, List.append_assoc, readElem_append hf]
      simp only
      rw [ih (fun q hq => hv q (by simp [hq])) (by simpa using hl)]
      simp

/-- loading from a stream that ends inside (or before) the next element -/
theorem loadOps_short (hf : Bin.fixed T = true) {ops : List Ptr} (hv : ∀ p ∈ ops, p ≠ 0)
    {vs : List T} (hl : vs.length < ops.length) (h : Heap T) {r : List Byte}
    (hr : r.length < Bin.width T) :
    ∃ e, loadOps ops (h, vs.flatMap Bin.encode ++ r)
      = .err e ((ops.zip vs).foldl (fun h pv => h.put pv.1 pv.2) h, []) := by
  induction ops generalizing vs h with
  | nil => simp at hl
  | cons p ps ih =>
    have hp : p ≠ 0 := hv p (by simp)
    match vs, hl with
    | [], _ =>
      obtain ⟨e, he⟩ := readElem_short hf hr
      refine ⟨e, ?_⟩
      rw [loadOps, if_neg hp, List.flatMap_nil, List.nil_append, he]
      simp
    | v :: vs, hl =>
      obtain ⟨e, he⟩ := ih (fun q hq => hv q (by simp [hq])) (vs := vs) (by simpa using hl) (h.put p v)
      refine ⟨e, ?_⟩
      rw [loadOps, if_neg hp, List.flatMap_cons, List.append_assoc, readElem_append hf]
      simp only
      rw [he]
      simp

/-- the `i`-th element of a stream -/
def chunk (r : List Byte) (i : Nat) : T := Bin.decode ((r.drop (Bin.width T * i)).take (Bin.width T))

theorem readElem_take (hf : Bin.fixed T = true) {r : List Byte} (h : Bin.width T ≤ r.length) :
    readElem T r = .ok (Bin.decode (r.take (Bin.width T))) (r.drop (Bin.width T)) := by
  simp only [readElem, hf, if_true, readFull, h, Out.map_ok]

/-- loading from an arbitrary stream -/
theorem loadOps_any (hf : Bin.fixed T = true) {ops : List Ptr} (hv : ∀ p ∈ ops, p ≠ 0) (h : Heap T)
    (r : List Byte) :
    let n := Nat.min ops.length (r.length / Bin.width T)
    let h' := (ops.zip ((List.range n).map fun i => (chunk r i : T))).foldl
      (fun h pv => h.put pv.1 pv.2) h
    if Bin.width T * ops.length ≤ r.length then
      loadOps ops (h, r) = .ok () (h', r.drop (Bin.width T * ops.length))
    else ∃ e, loadOps ops (h, r) = .err e (h', []) := by
  have hw := Bin.width_pos (T := T)
  induction ops generalizing h r with
  | nil => simp [loadOps]
  | cons p ps ih =>
    have hp : p ≠ 0 := hv p (by simp)
    by_cases hr : Bin.width T ≤ r.length
    · have ih := ih (fun q hq => hv q (by simp [hq])) (h.put p (chunk r 0)) (r.drop (Bin.width T))
      have h0 : (Bin.decode (r.take (Bin.width T)) : T) = chunk r 0 := by simp [chunk]
      have hstep : loadOps (p :: ps) (h, r)
          = loadOps ps (h.put p (chunk r 0), r.drop (Bin.width T)) := by
        rw [loadOps, if_neg hp, readElem_take hf hr, h0]
      have hdiv : (r.length - Bin.width T) / Bin.width T = r.length / Bin.width T - 1 := by
        rw [Nat.div_eq_sub_div hw hr, Nat.add_sub_cancel]
      have hpos : 0 < r.length / Bin.width T := Nat.div_pos hr hw
      have hn : Nat.min (p :: ps).length (r.length / Bin.width T)
          = Nat.min ps.length ((r.drop (Bin.width T)).length / Bin.width T) + 1 := by
        rw [List.length_drop, hdiv, List.length_cons]
        simp only [Nat.min_def]
        split_ifs <;> omega
      have hch : ∀ i, (chunk (r.drop (Bin.width T)) i : T) = chunk r (i + 1) := by
        intro i
        simp only [chunk, List.drop_drop]
        congr 3
        ring
      simp only at ih ⊢
      rw [hn, List.range_succ_eq_map, List.map_cons, List.zip_cons_cons, List.foldl_cons, hstep,
        List.map_map]
      simp only [hch, List.length_drop, List.drop_drop] at ih
      have e1 : Bin.width T * (p :: ps).length = Bin.width T + Bin.width T * ps.length := by
        rw [List.length_cons]; ring
      rw [e1]
      by_cases hc : Bin.width T * ps.length ≤ r.length - Bin.width T
      · rw [if_pos hc] at ih
        rw [if_pos (by omega), ih, List.length_drop]
        rfl
      · rw [if_neg hc] at ih
        rw [if_neg (by omega), List.length_drop]
        exact ih
    · have hlt : r.length < Bin.width T := by omega
      obtain ⟨e, he⟩ := readElem_short hf hlt
      have h0 : r.length / Bin.width T = 0 := Nat.div_eq_of_lt hlt
      have hneg : ¬ Bin.width T * (p :: ps).length ≤ r.length := by
        rw [List.length_cons, Nat.mul_add, Nat.mul_one]
        omega
      simp only [h0, show ∀ a, Nat.min a 0 = 0 from Nat.min_zero, List.range_zero, List.map_nil, List.zip_nil_right, List.foldl_nil]
      rw [if_neg hneg]
      exact ⟨e, by rw [loadOps, if_neg hp, he]⟩

/-- values after a sequence of stores: a cell not stored to keeps its value -/
theorem foldl_put_other (l : List (Ptr × T)) (h : Heap T) {q : Ptr} (hq : ∀ pv ∈ l, pv.1 ≠ q) :
    (l.foldl (fun h pv => h.put pv.1 pv.2) h).val q = h.val q := by
  induction l generalizing h with
  | nil => rfl
  | cons pv l ih =>
    rw [List.foldl_cons, ih _ (fun x hx => hq x (by simp [hx]))]
    have := hq pv (by simp)
    simp [Heap.put, Ne.symm this]

theorem foldl_put_next (l : List (Ptr × T)) (h : Heap T) :
    (l.foldl (fun h pv => h.put pv.1 pv.2) h).next = h.next := by
  induction l generalizing h with
  | nil => rfl
  | cons pv l ih => rw [List.foldl_cons, ih]; rfl

/-- a cell stored to holds one of the values stored to it; if they all agree, that value -/
theorem foldl_put_eq (l : List (Ptr × T)) (h : Heap T) {q : Ptr} {v : T} (hm : (q, v) ∈ l)
    (hall : ∀ w, (q, w) ∈ l → w = v) :
    (l.foldl (fun h pv => h.put pv.1 pv.2) h).val q = v := by
  induction l generalizing h with
  | nil => simp at hm
  | cons pv l ih =>
    rw [List.foldl_cons]
    by_cases hin : ∃ w, (q, w) ∈ l
    · obtain ⟨w, hw⟩ := hin
      have hwv := hall w (by simp [hw])
      subst hwv
      exact ih _ hw fun w' hw' => hall w' (by simp [hw'])
    · rw [foldl_put_other l _ (fun x hx hxq => hin ⟨x.2, by rw [← hxq]; exact hx⟩)]
      have : pv = (q, v) := by
        rcases List.mem_cons.1 hm with h' | h'
        · exact h'.symm
        · exact absurd ⟨v, h'⟩ hin
      rw [this]
      simp [Heap.put]

/-- distinct cells: cell `k` gets value `k`, or keeps its own if there is none -/
theorem foldl_put_zip {ops : List Ptr} (hnd : ops.Nodup) (vs : List T) (h : Heap T) {k : Nat}
    {p : Ptr} (hp : ops[k]? = some p) :
    ((ops.zip vs).foldl (fun h pv => h.put pv.1 pv.2) h).val p = vs.getD k (h.val p) := by
  obtain ⟨hk, rfl⟩ := List.getElem?_eq_some_iff.1 hp
  have key : ∀ w, (ops[k], w) ∈ ops.zip vs → vs[k]? = some w := by
    intro w hw
    obtain ⟨j, hj⟩ := List.mem_iff_getElem?.1 hw
    rw [List.getElem?_zip_eq_some] at hj
    obtain ⟨h1, h2⟩ := hj
    obtain ⟨hj', h1⟩ := List.getElem?_eq_some_iff.1 h1
    have := (hnd.getElem_inj_iff).1 h1
    subst this
    exact h2
  by_cases hv : k < vs.length
  · have hv' := List.getElem?_eq_getElem hv
    rw [List.getD_eq_getElem?_getD, hv', Option.getD_some]
    refine foldl_put_eq _ _ (List.mem_iff_getElem?.2 ⟨k, ?_⟩) ?_
    · rw [List.getElem?_zip_eq_some]
      exact ⟨hp, hv'⟩
    · intro w hw
      have := key w hw
      rw [hv'] at this
      exact (Option.some.inj this).symm
  · rw [List.getD_eq_getElem?_getD, List.getElem?_eq_none (by omega), Option.getD_none]
    refine foldl_put_other _ _ ?_
    rintro ⟨q, w⟩ hx rfl
    have := key w hx
    rw [List.getElem?_eq_none (by omega)] at this
    cases this

end Mat
end Godeep
