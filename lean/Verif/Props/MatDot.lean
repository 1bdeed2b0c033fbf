import Verif.Lemmas.Struct
import Verif.Props.MatOps
import Mathlib.Data.List.Nodup
/-
  C17 Dot / DotAt (immediate versions).
-/
set_option linter.unusedSectionVars false

namespace Godeep.Props
open Godeep Spec GoNum

variable {T : Type} [GoNum T]

theorem holds_put {h : Heap T} {m : Mat} {A : STensor T} (H : Holds h m A) {p : Ptr} (v : T)
    (hp : p ∉ m.ops) : Holds (h.put p v) m A := by
  refine holds_of_flat H.shape H.mul H.valid ?_
  rw [← holds_flat H]
  apply List.map_congr_left
  intro q hq
  have : q ≠ p := fun hc => hp (hc ▸ hq)
  simp [Heap.put, this]

/-- the products summed for one output element -/
def terms (A B : STensor T) (d1 d2 : Nat) (ia ib : List Nat) (ks : List Nat) : List T :=
  ks.map fun k => GoNum.mul (A.get (ia.insertIdx d1 k)) (B.get (ib.insertIdx d2 k))

theorem put_val_self (h : Heap T) (p : Ptr) : h.put p (h.val p) = h := by
  unfold Heap.put
  congr 1
  funext q
  split <;> simp_all

theorem put_put (h : Heap T) (p : Ptr) (v w : T) : (h.put p v).put p w = h.put p w := by
  unfold Heap.put
  congr 1
  funext q
  split <;> simp_all

theorem holds_operand {h : Heap T} {m : Mat} {M : STensor T} (hm : Holds h m M) {i : List Nat}
    (hi : InRange M.shape i) :
    ∃ p, m.getOperand i = .ok p ∧ Valid h p ∧ h.val p = M.get i ∧ p ∈ m.ops := by
  have hg := hm.get i hi
  unfold Mat.get at hg
  have hmul : m.mul = strides m.shape := by rw [hm.mul]; simp
  have hkk : offset m.shape i < m.ops.length := by rw [hm.len, hm.shape]; exact offset_lt hi
  have ho := getOperand_ok hmul (hm.shape ▸ hi) (List.getElem?_eq_getElem hkk)
  have hmem : m.ops[offset m.shape i] ∈ m.ops := List.getElem_mem hkk
  rw [ho, Res.bind_ok, load_valid (hm.valid _ hmem)] at hg
  injection hg with hg
  exact ⟨_, ho, hm.valid _ hmem, hg, hmem⟩

theorem dotLoop_ok {a b : Mat} {A B : STensor T} {d1 d2 : Nat} {ia ib : List Nat} {cell : Ptr}
    (hd1 : d1 < A.shape.length) (hd2 : d2 < B.shape.length)
    (hia : InRange (A.shape.eraseIdx d1) ia) (hib : InRange (B.shape.eraseIdx d2) ib)
    (hca : cell ∉ a.ops) (hcb : cell ∉ b.ops) :
    ∀ (ks : List Nat) (h : Heap T), Holds h a A → Holds h b B → Valid h cell →
      (∀ k ∈ ks, k < A.shape.getD d1 0 ∧ k < B.shape.getD d2 0) →
      Mat.dotLoop a b cell d1 d2 (Mat.spread ia d1) (Mat.spread ib d2) ks h =
        .ok () (h.put cell ((terms A B d1 d2 ia ib ks).foldl GoNum.add (h.val cell))) := by
  have hla : d1 ≤ ia.length := by
    rw [inRange_length hia, List.length_eraseIdx_of_lt hd1]; omega
  have hlb : d2 ≤ ib.length := by
    rw [inRange_length hib, List.length_eraseIdx_of_lt hd2]; omega
  intro ks
  induction ks with
  | nil => intro h _ _ _ _; simp only [Mat.dotLoop, terms, List.map_nil, List.foldl_nil, put_val_self]
  | cons k ks ih =>
    intro h ha hb hc hks
    obtain ⟨hk1, hk2⟩ := hks k (by simp)
    obtain ⟨p, hp1, hp2, hp3, hp4⟩ := holds_operand ha (inRange_insertIdx hd1 hia hk1)
    obtain ⟨q, hq1, hq2, hq3, hq4⟩ := holds_operand hb (inRange_insertIdx hd2 hib hk2)
    simp only [Mat.dotLoop, spread_set _ _ _ hla, spread_set _ _ _ hlb, hp1, hq1, load_valid hc,
      load_valid hp2, load_valid hq2, Res.bind_ok, Res.map_ok, hp3, hq3]
    have hne : cell ≠ 0 := by have := hc.1; omega
    simp only [Heap.store, hne, if_false, Out.bind_ok]
    rw [ih _ (holds_put ha _ hca) (holds_put hb _ hcb) hc (fun j hj => hks j (by simp [hj]))]
    rw [put_put]
    simp [Heap.put, terms]

theorem dotOuter_ok {a b : Mat} {A B : STensor T} {d1 d2 : Nat} {ops : List Ptr}
    (hd1 : d1 < A.shape.length) (hd2 : d2 < B.shape.length) (n : Nat)
    (hn1 : n = A.shape.getD d1 0) (hn2 : n = B.shape.getD d2 0)
    (hnd : ops.Nodup) (hoa : ∀ p ∈ ops, p ∉ a.ops) (hob : ∀ p ∈ ops, p ∉ b.ops)
    (hlen : ops.length = size (A.shape.eraseIdx d1 ++ B.shape.eraseIdx d2)) :
    let shape := A.shape.eraseIdx d1 ++ B.shape.eraseIdx d2
    ∀ (is : List Nat) (h : Heap T), Holds h a A → Holds h b B → (∀ p ∈ ops, Valid h p) →
      is.Nodup → (∀ i ∈ is, i < ops.length) →
      ∃ h', Mat.dotOuter a b n d1 d2 (A.shape.eraseIdx d1).length (indexMul shape) shape ops is h =
          .ok () h' ∧ h'.next = h.next ∧ (∀ q, (∀ i ∈ is, ops[i]? ≠ some q) → h'.val q = h.val q) ∧
        ∀ i ∈ is, ∀ p, ops[i]? = some p → h'.val p =
          (terms A B d1 d2 ((unflat shape i).take (A.shape.eraseIdx d1).length)
            ((unflat shape i).drop (A.shape.eraseIdx d1).length) (List.range n)).foldl GoNum.add (h.val p) := by
  intro shape is
  induction is with
  | nil => intro h _ _ _ _ _; exact ⟨h, rfl, rfl, fun _ _ => rfl, by simp⟩
  | cons i is ih =>
    intro h ha hb hv hisnd hlt
    have hi : i < ops.length := hlt i (by simp)
    have hi' : i < size shape := hlen ▸ hi
    have hr := unflat_inRange hi'
    have hia : InRange (A.shape.eraseIdx d1) ((unflat shape i).take (A.shape.eraseIdx d1).length) := by
      have := inRange_take hr (A.shape.eraseIdx d1).length
      simpa [shape] using this
    have hib : InRange (B.shape.eraseIdx d2) ((unflat shape i).drop (A.shape.eraseIdx d1).length) := by
      have := inRange_drop hr (A.shape.eraseIdx d1).length
      simpa [shape] using this
    have hmem : ops[i] ∈ ops := List.getElem_mem hi
    have hloop := dotLoop_ok (a := a) (b := b) hd1 hd2 hia hib (hoa _ hmem) (hob _ hmem)
      (List.range n) h ha hb (hv _ hmem)
      (fun k hk => by have := List.mem_range.1 hk; omega)
    obtain ⟨h', e1, e2, e3, e4⟩ := ih (h.put ops[i] ((terms A B d1 d2
        ((unflat shape i).take (A.shape.eraseIdx d1).length)
        ((unflat shape i).drop (A.shape.eraseIdx d1).length) (List.range n)).foldl GoNum.add (h.val ops[i])))
      (holds_put ha _ (hoa _ hmem)) (holds_put hb _ (hob _ hmem)) hv (List.nodup_cons.1 hisnd).2
      (fun j hj => hlt j (by simp [hj]))
    refine ⟨h', ?_, e2, ?_, ?_⟩
    · simp only [Mat.dotOuter, indexMul_eq, reverseIndex_unflat hi', Res.bind_ok,
        Res.index_eq (List.getElem?_eq_getElem hi), Res.map_ok, hloop, Out.bind_ok]
      rw [indexMul_eq] at e1
      exact e1
    · intro q hq
      rw [e3 q (fun j hj => hq j (by simp [hj]))]
      have : q ≠ ops[i] := fun hc => hq i (by simp) (by rw [hc, List.getElem?_eq_getElem hi])
      simp [Heap.put, this]
    · intro j hj p hp
      have hinj : ∀ j', j' < ops.length → ops[j']? = some ops[i] → j' = i := by
        intro j' hj' he
        rw [List.getElem?_eq_getElem hj'] at he
        injection he with he
        exact (List.Nodup.getElem_inj_iff hnd).1 he
      rcases List.mem_cons.1 hj with rfl | hjs
      · rw [List.getElem?_eq_getElem hi] at hp
        injection hp with hp
        subst hp
        rw [e3]
        · simp [Heap.put]
        · intro k hk he
          have := hinj k (hlt k (by simp [hk])) he
          subst this
          exact (List.nodup_cons.1 hisnd).1 hk
      · rw [e4 j hjs p hp]
        have : p ≠ ops[i] := by
          intro hc
          have := hinj j (hlt j (by simp [hjs])) (hc ▸ hp)
          subst this
          exact (List.nodup_cons.1 hisnd).1 hjs
        simp [Heap.put, this]

theorem shape_index {s : List Nat} {d : Nat} (h : d < s.length) : s[d]? = some (s.getD d 0) := by
  simp [List.getD, h]

/-- `DotAt` of two tensors, not both vectors, whose chosen dimensions agree -/
theorem C17_dotAt (a b : Mat) (A B : STensor T) (h : Heap T) (ha : Holds h a A) (hb : Holds h b B)
    (hpos : 0 < h.next) (d1 d2 : Nat) (hd1 : d1 < A.shape.length) (hd2 : d2 < B.shape.length)
    (hn : A.shape.getD d1 0 = B.shape.getD d2 0)
    (hr : ¬ (A.shape.length = 1 ∧ B.shape.length = 1)) :
    ∃ r h', a.dotAt b d1 d2 h = .ok r h' ∧ NewTensor h h' r (A.dot sum0 B d1 d2) := by
  set shape := A.shape.eraseIdx d1 ++ B.shape.eraseIdx d2 with hshape
  obtain ⟨h1, e1, e2, e3, e4⟩ := allocEach_ok (l := List.range (size shape)) (h := h)
    (f := fun (_ : Nat) (_ : Heap T) => .ok zero) (v := fun _ => zero) (fun _ _ _ _ => rfl)
  rw [List.length_range] at e1 e3 e4
  obtain ⟨h', f1, f2, f3, f4⟩ := dotOuter_ok (a := a) (b := b) (ops := List.range' h.next (size shape))
    hd1 hd2 (A.shape.getD d1 0) rfl hn (List.nodup_range')
    (fun p hp hc => by have := (ha.valid p hc).2; have := List.mem_range'_1.1 hp; omega)
    (fun p hp hc => by have := (hb.valid p hc).2; have := List.mem_range'_1.1 hp; omega)
    (by simp [hshape]) (List.range (size shape)) h1 (ha.extends e2) (hb.extends e2)
    (fun p hp => by have := List.mem_range'_1.1 hp; exact ⟨by omega, by omega⟩)
    List.nodup_range (fun i hi => by simpa using hi)
  refine ⟨⟨shape, indexMul shape, List.range' h.next (size shape)⟩, h', ?_, ?_⟩
  · unfold Mat.dotAt
    rw [ha.shape, hb.shape, if_neg (by omega)]
    simp only [shape_index hd1, shape_index hd2, hn, ne_eq, not_true_eq_false, if_false]
    rw [if_neg hr]
    have hs2 : A.shape.eraseIdx d1 ++ List.take d2 B.shape ++ List.drop (d2 + 1) B.shape = shape := by
      rw [hshape, List.append_assoc, ← List.eraseIdx_eq_take_drop_succ]
    simp only [hs2, dataSize_eq, e1, Out.bind_ok, List.length_range']
    rw [← hn, f1]; rfl
  · have hx : Extends h h' := by
      refine ⟨by rw [f2]; exact e2.next, fun p hp => ?_⟩
      rw [f3 p, e2.val p hp]
      intro i hi hc
      have := List.mem_range'_1.1 (List.mem_of_getElem? hc)
      omega
    refine newTensor_of_alloc (t := A.dot sum0 B d1 d2) rfl hx (by rw [f2, e3]) hpos ?_
    rw [flat_eq_range]
    apply List.ext_getElem?
    intro k
    rw [List.getElem?_map, List.getElem?_map]
    have hsz : size (A.dot sum0 B d1 d2).shape = size shape := rfl
    rw [hsz]
    by_cases hk : k < size shape
    · have hk' : (List.range' h.next (size shape))[k]? = some (h.next + k) := by
        rw [List.getElem?_range' (by omega)]; simp
      rw [hk', List.getElem?_range hk, Option.map_some, Option.map_some]
      congr 1
      rw [f4 k (List.mem_range.2 hk) _ hk']
      have hz : h1.val (h.next + k) = zero := by
        have := congrArg (·[k]?) e4
        simp only [List.getElem?_map, hk', List.getElem?_range hk, Option.map_some] at this
        exact Option.some.inj this
      rw [hz]
      have hlA : (A.shape.eraseIdx d1).length = A.shape.length - 1 := List.length_eraseIdx_of_lt hd1
      rw [hlA]
      rfl
    · rw [List.getElem?_eq_none (by simpa using hk), List.getElem?_eq_none (by simpa using hk)]; rfl

/-- two vectors: a one-element vector -/
theorem C17_dotAt_vectors (a b : Mat) (A B : STensor T) (h : Heap T) (ha : Holds h a A)
    (hb : Holds h b B) (hpos : 0 < h.next) (n : Nat) (hA : A.shape = [n]) (hB : B.shape = [n]) :
    ∃ r h', a.dotAt b 0 0 h = .ok r h' ∧ NewTensor h h' r (A.dotVec sum0 B) := by
  have hla : a.ops.length = n := by rw [ha.len, ha.shape, hA]; simp [size]
  have hlb : b.ops.length = n := by rw [hb.len, hb.shape, hB]; simp [size]
  have hA1 : size A.shape = n := by rw [hA]; simp [size]
  have hB1 : size B.shape = n := by rw [hB]; simp [size]
  have hun : ∀ k, k < n → unflat [n] k = [k] := by
    intro k hk
    have : InRange [n] [k] := by simpa [InRange] using hk
    have h2 := unflat_offset this
    simpa [offset, size] using h2
  obtain ⟨h1, e1, e2, e3, e4⟩ := allocEach_ok (l := List.range n) (h := h)
    (f := fun i h => (h.loadAt a.ops i).bind fun x => (h.loadAt b.ops i).map fun y => GoNum.mul x y)
    (v := fun k => GoNum.mul (A.get [k]) (B.get [k]))
    (fun i hi h' he => by
      have hi' := List.mem_range.1 hi
      rw [holds_loadAt ha he (by omega), holds_loadAt hb he (by omega), hA, hB, hun i hi']; rfl)
  obtain ⟨h2, f1, f2, f3, f4⟩ := allocEach_ok (l := [()]) (h := h1)
    (f := fun (_ : Unit) hh => (hh.loadAll (List.range' h.next n)).bind Mat.toolsSum)
    (v := fun _ => sum0 ((List.range n).map fun k => GoNum.mul (A.get [k]) (B.get [k])))
    (fun i _ h' he => by
      rw [List.length_range] at e4 e3
      rw [loadAll_extends (h := h1) _ he]
      · simp only [e4, Res.bind_ok]; rfl
      · intro p hp
        have := List.mem_range'_1.1 hp
        exact ⟨by omega, by omega⟩)
  refine ⟨⟨[1], [1], List.range' h1.next 1⟩, h2, ?_, ?_⟩
  · unfold Mat.dotAt
    rw [ha.shape, hb.shape, hA, hB]
    simp only [List.length_cons, List.length_nil, List.getElem?_cons_zero, ne_eq,
      not_true_eq_false, if_false, Mat.dotVector, Mat.getSize, hla, hlb]
    rw [List.length_range] at e1
    simp [e1, f1]
  · have := newTensor_of_alloc (shape := [1]) (t := A.dotVec sum0 B) rfl f2 f3
      (lt_of_lt_of_le hpos e2.next) (by rw [f4]; simp only [List.map_cons, List.map_nil, STensor.flat, STensor.dotVec, allIdx, hA]; rfl)
    exact ⟨this.holds, e2.trans f2, fun p hp => le_trans e2.next (this.fresh p hp), this.nodup⟩

/-- errors: a tensor of rank 0, or different extents; then nothing changes -/
theorem C17_dotAt_rank_zero (a b : Mat) (h : Heap T) (d1 d2 : Nat)
    (hz : a.shape = [] ∨ b.shape = []) : ∃ er, a.dotAt b d1 d2 h = .err er h := by
  unfold Mat.dotAt
  rw [if_pos (by rcases hz with hz | hz <;> simp [hz])]
  exact ⟨_, rfl⟩

theorem C17_dotAt_extent (a b : Mat) (h : Heap T) (d1 d2 : Nat) (hd1 : d1 < a.shape.length)
    (hd2 : d2 < b.shape.length) (hn : a.shape.getD d1 0 ≠ b.shape.getD d2 0) :
    a.dotAt b d1 d2 h = .err (.extent (a.shape.getD d1 0) (b.shape.getD d2 0) d1) h := by
  unfold Mat.dotAt
  rw [if_neg (by omega)]
  simp only [shape_index hd1, shape_index hd2]
  rw [if_pos hn]

/-- a dimension that does not exist is not reported: the program aborts -/
theorem C17_dotAt_bad_dim_panics (a b : Mat) (h : Heap T) (d1 d2 : Nat) (h1 : a.shape ≠ [])
    (h2 : b.shape ≠ []) (hd : a.shape.length ≤ d1 ∨ b.shape.length ≤ d2) :
    a.dotAt b d1 d2 h = .panic := by
  unfold Mat.dotAt
  rw [if_neg (by simp [h1, h2])]
  rcases hd with hd | hd
  · simp [List.getElem?_eq_none hd]
  · rw [List.getElem?_eq_none hd]; cases a.shape[d1]? <;> rfl

/-- `Dot` contracts the last dimension of the first with the last but one of the second -/
theorem C17_dot (a b : Mat) (A B : STensor T) (h : Heap T) (ha : Holds h a A) (hb : Holds h b B)
    (hpos : 0 < h.next) (hA : A.shape ≠ []) (hB : 2 ≤ B.shape.length)
    (hn : A.shape.getD (A.shape.length - 1) 0 = B.shape.getD (B.shape.length - 2) 0) :
    ∃ r h', a.dot b h = .ok r h' ∧
      NewTensor h h' r (A.dot sum0 B (A.shape.length - 1) (B.shape.length - 2)) := by
  have hAl : 0 < A.shape.length := List.length_pos_of_ne_nil hA
  have := C17_dotAt a b A B h ha hb hpos (A.shape.length - 1) (B.shape.length - 2) (by omega)
    (by omega) hn (by omega)
  unfold Mat.dot
  simp only [ha.shape, hb.shape]
  rw [if_pos (by omega), show B.shape.length - 1 - 1 = B.shape.length - 2 by omega]
  exact this

/-- the familiar case: an `m×n` by an `n×p` matrix -/
theorem C17_dot_matrices (a b : Mat) (A B : STensor T) (h : Heap T) (ha : Holds h a A)
    (hb : Holds h b B) (hpos : 0 < h.next) (m n p : Nat) (hA : A.shape = [m, n])
    (hB : B.shape = [n, p]) :
    ∃ r h', a.dot b h = .ok r h' ∧ r.shape = [m, p] ∧ ∀ i j, i < m → j < p →
      r.get [i, j] h' = .ok (sum0 ((List.range n).map fun k => GoNum.mul (A.get [i, k]) (B.get [k, j]))) := by
  obtain ⟨r, h', h1, h2⟩ := C17_dot a b A B h ha hb hpos (by rw [hA]; simp) (by rw [hB]; simp)
    (by rw [hA, hB]; rfl)
  refine ⟨r, h', h1, ?_, ?_⟩
  · rw [h2.holds.shape]; simp [STensor.dot, hA, hB]
  · intro i j hi hj
    rw [h2.holds.get [i, j] (by
      simp only [STensor.dot, hA, hB]
      exact List.Forall₂.cons hi (List.Forall₂.cons hj List.Forall₂.nil))]
    simp [STensor.dot, hA, hB]

example : (match Mat.newFromValues [1, 2, 3, 4, 5, 6] [2, 3] (Heap.empty (0 : Int)) with
    | .ok a h => match Mat.newFromValues [1, 0, 0, 1, 1, 1] [3, 2] h with
      | .ok b h => match a.dot b h with
        | .ok r h => (r.shape, r.getData h)
        | _ => ([], .panic)
      | _ => ([], .panic)
    | _ => ([], .panic)) = ([2, 2], .ok [4, 5, 10, 11]) := by decide

end Godeep.Props
