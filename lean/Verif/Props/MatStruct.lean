import Verif.Lemmas.Struct
import Verif.Props.MatOps
/-
  C13 SubTensor, C14 FOSubTensor, C15 Concat, C16 Reshape (immediate versions).
-/
set_option linter.unusedSectionVars false

namespace Godeep.Props
open Godeep Spec GoNum

variable {T : Type} [GoNum T]

/-! ### C13 -/

theorem C13_subTensor (a : Mat) (A : STensor T) (h : Heap T) (ha : Holds h a A)
    (hpos : 0 < h.next) (d s e : Nat) (hd : d < A.shape.length) (hse : s < e)
    (he : e ≤ A.shape.getD d 0) :
    ∃ r h', a.subTensor d s e h = .ok r h' ∧ NewTensor h h' r (A.slab d s e) := by
  obtain ⟨h', ops, e1, e2⟩ := alloc_newTensor (shape := a.shape.set d (e - s)) (t := A.slab d s e)
    (f := fun i h => (reverseIndex (indexMul (a.shape.set d (e - s))) (a.shape.set d (e - s)) i).bind
      fun idx => (Mat.bump idx d s).bind fun idx => a.get idx h)
    (n := dataSize (a.shape.set d (e - s))) (h := h) hpos (by rw [ha.shape]; rfl)
    (by rw [dataSize_eq, ha.shape]; rfl)
    (fun k hk h' hx => by
      have hk1 : k < size (A.shape.set d (e - s)) := hk
      have hr := unflat_inRange hk1
      obtain ⟨v, hv, -, hlt, hset⟩ := inRange_set_elim hd hr
      rw [ha.shape, indexMul_eq, reverseIndex_unflat hk1, Res.bind_ok, bump_ok hv, Res.bind_ok,
        holds_get ha hx (hset _ (by omega))]
      simp only [STensor.slab]
      rw [modify_eq_set _ hv])
  refine ⟨_, h', ?_, e2⟩
  unfold Mat.subTensor
  rw [ha.shape] at e1 ⊢
  rw [if_neg (by omega), if_neg (by omega), if_neg (by omega), if_neg (by omega)]
  simp only [e1, Out.map_ok]

/-- every other argument is an error that changes nothing -/
theorem C13_subTensor_error (a : Mat) (h : Heap T) (d s e : Nat)
    (hbad : ¬ (d < a.shape.length ∧ s < e ∧ e ≤ a.shape.getD d 0)) :
    ∃ er, a.subTensor d s e h = .err er h := by
  unfold Mat.subTensor
  by_cases h1 : d ≥ a.shape.length
  · rw [if_pos h1]; exact ⟨_, rfl⟩
  · by_cases h2 : e ≤ s
    · rw [if_neg h1, if_pos h2]; exact ⟨_, rfl⟩
    · have h3 : e > a.shape.getD d 0 := by
        by_contra hc; exact hbad ⟨by omega, by omega, by omega⟩
      rw [if_neg h1, if_neg h2, if_pos h3]; exact ⟨_, rfl⟩

example : (match Mat.newFromValues [1, 2, 3, 4, 5, 6] [2, 3] (Heap.empty (0 : Int)) with
    | .ok a h => match a.subTensor 1 1 3 h with
      | .ok r h => (r.shape, r.getData h)
      | _ => ([], .panic)
    | _ => ([], .panic)) = ([2, 2], .ok [2, 3, 5, 6]) := by decide

/-! ### C14

`FOSubTensor` should return `A.slabFill d s e fill` for every `s < e`.  It does when the
range lies inside the source, or starts strictly beyond its extent.  A range that contains the
position equal to the extent makes it fail instead (test `>` where `>=` is needed). -/

theorem C14_foSubTensor_partial (a : Mat) (A : STensor T) (h : Heap T) (ha : Holds h a A)
    (hpos : 0 < h.next) (d s e : Nat) (fill : T) (hd : d < A.shape.length) (hse : s < e)
    (he : e ≤ A.shape.getD d 0 ∨ A.shape.getD d 0 < s) :
    ∃ r h', a.foSubTensor d s e fill h = .ok r h' ∧ NewTensor h h' r (A.slabFill d s e fill) := by
  obtain ⟨h', ops, e1, e2⟩ := alloc_newTensor (shape := a.shape.set d (e - s))
    (t := A.slabFill d s e fill)
    (f := fun i h => (reverseIndex (indexMul (a.shape.set d (e - s))) (a.shape.set d (e - s)) i).bind
      fun idx => (Mat.bump idx d s).bind fun idx =>
        if idx.getD d 0 > a.shape.getD d 0 then .ok fill else a.get idx h)
    (n := dataSize (a.shape.set d (e - s))) (h := h) hpos (by rw [ha.shape]; rfl)
    (by rw [dataSize_eq, ha.shape]; rfl)
    (fun k hk h' hx => by
      have hk1 : k < size (A.shape.set d (e - s)) := hk
      have hr := unflat_inRange hk1
      obtain ⟨v, hv, hv', hlt, hset⟩ := inRange_set_elim hd hr
      have hdl : d < (unflat (A.shape.set d (e - s)) k).length := (List.getElem?_eq_some_iff.1 hv).1
      rw [ha.shape, indexMul_eq, reverseIndex_unflat hk1, Res.bind_ok, bump_ok hv, Res.bind_ok]
      have hg : ((unflat (A.shape.set d (e - s)) k).set d (v + s)).getD d 0 = v + s := by
        simp [List.getD, hdl]
      rw [hg]
      simp only [STensor.slabFill, hv']
      rcases he with he | he
      · rw [if_neg (by omega), if_pos (by omega), holds_get ha hx (hset _ (by omega)),
          modify_eq_set _ hv]
      · rw [if_pos (by omega), if_neg (by omega)])
  refine ⟨_, h', ?_, e2⟩
  unfold Mat.foSubTensor
  rw [ha.shape] at e1 ⊢
  rw [if_neg (by omega), if_neg (by omega)]
  simp only [e1, Out.map_ok]

/-- every range that contains the position equal to the extent fails (on a tensor whose other
extents are not 0, so that there is something to read) -/
theorem C14_foSubTensor_boundary_fails (a : Mat) (A : STensor T) (h : Heap T) (ha : Holds h a A)
    (d s e : Nat) (fill : T) (hd : d < A.shape.length)
    (hs : s ≤ A.shape.getD d 0) (he : A.shape.getD d 0 < e)
    (hne : 0 < size (A.shape.set d 1)) :
    ∃ er h', a.foSubTensor d s e fill h = .err er h' ∧ Extends h h' := by
  have hmul : a.mul = strides A.shape := by rw [ha.mul, indexMul_eq, ha.shape]
  set shape := A.shape.set d (e - s) with hshape
  -- the right-hand side is ok for positions other than the extent, an error at it
  have hstep : ∀ k, k < size shape → ∀ h', Extends h h' →
      (((unflat shape k).getD d 0 + s ≠ A.shape.getD d 0 →
        ∃ v, ((reverseIndex (indexMul shape) shape k).bind fun idx => (Mat.bump idx d s).bind fun idx =>
          if idx.getD d 0 > A.shape.getD d 0 then .ok fill else a.get idx h') = .ok v) ∧
       ((unflat shape k).getD d 0 + s = A.shape.getD d 0 →
        ((reverseIndex (indexMul shape) shape k).bind fun idx => (Mat.bump idx d s).bind fun idx =>
          if idx.getD d 0 > A.shape.getD d 0 then .ok fill else a.get idx h') =
          .err (.indexRange (A.shape.getD d 0) d (A.shape.getD d 0)))) := by
    intro k hk h' hx
    have hr := unflat_inRange hk
    rw [hshape] at hr
    obtain ⟨v, hv, hv', hlt, hset⟩ := inRange_set_elim hd hr
    rw [← hshape] at hv hv' hset hr
    have hdl : d < (unflat shape k).length := (List.getElem?_eq_some_iff.1 hv).1
    have hg : ((unflat shape k).set d (v + s)).getD d 0 = v + s := by
      simp [List.getD, hdl]
    rw [indexMul_eq, reverseIndex_unflat hk, Res.bind_ok, bump_ok hv, Res.bind_ok, hg, hv']
    constructor
    · intro hne'
      by_cases hgt : v + s > A.shape.getD d 0
      · rw [if_pos hgt]; exact ⟨_, rfl⟩
      · rw [if_neg hgt, holds_get ha hx (hset _ (by omega))]; exact ⟨_, rfl⟩
    · intro heq
      rw [if_neg (by omega)]
      unfold Mat.get Mat.getOperand getIndex
      have hl : (unflat shape k).length = A.shape.length := by
        have := inRange_length hr; rw [this, hshape]; simp
      rw [hmul, ha.shape, if_neg (by simp), if_neg (by simp [hl])]
      -- the first bad component is `d`
      have hchk : ∀ (ss is : List Nat) (pos d : Nat), is.length = ss.length → d < ss.length →
          is.getD d 0 = ss.getD d 0 →
          (∀ j a b : Nat, j ≠ d → is[j]? = some a → ss[j]? = some b → a < b) →
          checkRange ss is pos = some (.indexRange (ss.getD d 0) (pos + d) (ss.getD d 0)) := by
        intro ss
        induction ss with
        | nil => intro is pos d _ hd; simp at hd
        | cons s' ss ih =>
          intro is pos d hl hd heq hothers
          cases is with
          | nil => simp at hl
          | cons i is =>
            cases d with
            | zero =>
              simp only [List.getD_cons_zero] at heq
              subst heq
              simp [checkRange]
            | succ d =>
              have h0 : i < s' := hothers 0 i s' (by omega) (by simp) (by simp)
              simp only [checkRange]
              rw [if_neg (by omega), ih is (pos + 1) d (by simpa using hl) (by simpa using hd)
                (by simpa using heq)]
              · simp only [List.getD_cons_succ]; congr 2; omega
              · intro j a b hj ha hb
                exact hothers (j + 1) a b (by omega) (by simpa using ha) (by simpa using hb)
      rw [hchk A.shape _ 0 d (by simpa using hl) hd]
      · simp
      · rw [hg, heq]
      · intro j x y hj hx hy
        rw [List.getElem?_set, if_neg (fun hc => hj hc.symm)] at hx
        exact (inRange_iff.1 hr).2 j x y hx (by
          rw [hshape, List.getElem?_set, if_neg (fun hc => hj hc.symm)]; exact hy)
  -- some position is equal to the extent
  have hex : ∃ k, k < size shape ∧ (unflat shape k).getD d 0 + s = A.shape.getD d 0 := by
    obtain ⟨i0, hi0, -⟩ := exists_idx hne
    have hi1 : InRange shape (i0.set d (A.shape.getD d 0 - s)) := by
      have := inRange_set_intro (s := A.shape.set d 1) (d := d) (n := e - s)
        (w := A.shape.getD d 0 - s) (by simpa using hd) hi0 (by omega)
      rw [List.set_set] at this
      exact this
    refine ⟨offset shape (i0.set d (A.shape.getD d 0 - s)), offset_lt hi1, ?_⟩
    rw [unflat_offset hi1]
    have hl : d < i0.length := by rw [inRange_length hi0]; simpa using hd
    have : (i0.set d (A.shape.getD d 0 - s)).getD d 0 = A.shape.getD d 0 - s := by
      simp [List.getD, hl]
    rw [this]; omega
  obtain ⟨k, hk, hpk, hfirst⟩ := exists_first (P := fun k =>
    (unflat shape k).getD d 0 + s = A.shape.getD d 0) hex
  have := allocEach_err (l1 := List.range k) (i := k) (l2 := List.range' (k + 1) (size shape - k - 1))
    (h := h) (f := fun i h => (reverseIndex (indexMul shape) shape i).bind fun idx =>
      (Mat.bump idx d s).bind fun idx =>
        if idx.getD d 0 > A.shape.getD d 0 then .ok fill else a.get idx h)
    (fun j hj h' he => (hstep j (by have := List.mem_range.1 hj; omega) h' he).1
      (hfirst j (List.mem_range.1 hj)))
    (fun h' he => (hstep k hk h' he).2 hpk)
  obtain ⟨h', e1, e2⟩ := this
  refine ⟨.indexRange (A.shape.getD d 0) d (A.shape.getD d 0), h', ?_, e2⟩
  unfold Mat.foSubTensor
  rw [ha.shape]
  rw [if_neg (by omega), if_neg (by omega)]
  simp only [dataSize_eq, ← hshape]
  rw [range_split hk, e1]
  rfl

/-- the witness: one row past the end of a 2-vector -/
theorem C14_not_padded : ¬ ∀ (a : Mat) (A : STensor Int) (h : Heap Int), Holds h a A → 0 < h.next →
    ∀ d s e fill, d < A.shape.length → s < e →
    ∃ r h', a.foSubTensor d s e fill h = .ok r h' ∧ NewTensor h h' r (A.slabFill d s e fill) := by
  intro hall
  obtain ⟨er, h', hf, -⟩ := C14_foSubTensor_boundary_fails (T := Int) ⟨[2], [1], [1, 2]⟩
    ⟨[2], fun _ => 7⟩ ⟨fun _ => 7, 3⟩
    (by
      refine holds_of_flat rfl (by decide) ?_ (by decide)
      intro p hp; simp at hp; rcases hp with rfl | rfl <;> constructor <;> decide)
    0 0 3 0 (by decide) (by decide) (by decide) (by decide)
  obtain ⟨r, h'', he, -⟩ := hall ⟨[2], [1], [1, 2]⟩ ⟨[2], fun _ => 7⟩ ⟨fun _ => 7, 3⟩
    (by
      refine holds_of_flat rfl (by decide) ?_ (by decide)
      intro p hp; simp at hp; rcases hp with rfl | rfl <;> constructor <;> decide)
    (by decide) 0 0 3 0 (by decide) (by decide)
  rw [hf] at he; cases he

/-! ### C15 -/

theorem concatPick_ok {a b : Mat} {A B : STensor T} {h : Heap T} (ha : Holds h a A)
    (hb : Holds h b B) {d : Nat} (hd : d < A.shape.length) {x : Nat}
    (hcompat : B.shape = A.shape.set d x) {k : Nat}
    (hk : k < size (A.shape.set d (A.shape.getD d 0 + x))) :
    ∃ p, Mat.concatPick a b d (A.shape.getD d 0)
        (unflat (A.shape.set d (A.shape.getD d 0 + x)) k) = .ok p ∧ Valid h p ∧
      h.val p = (A.concat B d).get (unflat (A.shape.set d (A.shape.getD d 0 + x)) k) ∧
      (p ∈ a.ops ∨ p ∈ b.ops) := by
  have hr := unflat_inRange hk
  obtain ⟨v, hv, hv', hlt, hset⟩ := inRange_set_elim hd hr
  generalize unflat (A.shape.set d (A.shape.getD d 0 + x)) k = idx at *
  unfold Mat.concatPick
  simp only [hv, STensor.concat, hv']
  have key : ∀ (m : Mat) (M : STensor T), Holds h m M → ∀ i, InRange M.shape i →
      ∃ p, m.getOperand i = .ok p ∧ Valid h p ∧ h.val p = M.get i ∧ p ∈ m.ops := by
    intro m M hm i hi
    have hg := hm.get i hi
    unfold Mat.get at hg
    have hmul : m.mul = strides m.shape := by rw [hm.mul]; simp
    have hkk : offset m.shape i < m.ops.length := by rw [hm.len, hm.shape]; exact offset_lt hi
    have ho := getOperand_ok hmul (hm.shape ▸ hi) (List.getElem?_eq_getElem hkk)
    have hmem : m.ops[offset m.shape i] ∈ m.ops := List.getElem_mem hkk
    rw [ho, Res.bind_ok, load_valid (hm.valid _ hmem)] at hg
    injection hg with hg
    exact ⟨_, ho, hm.valid _ hmem, hg, hmem⟩
  by_cases hlt' : v < A.shape.getD d 0
  · rw [if_pos hlt', if_pos hlt']
    have hr' : InRange A.shape idx := by
      have := hset v hlt'
      rwa [← hv', set_getD_self (by exact (List.getElem?_eq_some_iff.1 hv).1)] at this
    obtain ⟨p, h1, h2, h3, h4⟩ := key a A ha idx hr'
    exact ⟨p, h1, h2, h3, Or.inl h4⟩
  · rw [if_neg hlt', if_neg hlt', modify_eq_set _ hv]
    have hr' : InRange B.shape (idx.set d (v - A.shape.getD d 0)) := by
      have := inRange_set_intro (d := d) (n := x) (w := v - A.shape.getD d 0)
        (by simpa using hd) hr (by omega)
      rw [List.set_set] at this
      rw [hcompat]; exact this
    obtain ⟨p, h1, h2, h3, h4⟩ := key b B hb _ hr'
    exact ⟨p, h1, h2, h3, Or.inr h4⟩

theorem concat_shape {A B : STensor T} {d x : Nat} (hd : d < A.shape.length)
    (hcompat : B.shape = A.shape.set d x) :
    (A.concat B d).shape = A.shape.set d (A.shape.getD d 0 + x) ∧ B.shape.getD d 0 = x ∧
      B.shape[d]? = some x := by
  have h1 : B.shape[d]? = some x := by rw [hcompat]; simp [hd]
  have h2 : B.shape.getD d 0 = x := by simp [List.getD, h1]
  refine ⟨?_, h2, h1⟩
  simp only [STensor.concat, h2]
  rw [modify_eq_set _ (v := A.shape.getD d 0) (by simp [List.getD, hd])]

/-- Mapping over offsets with a function that yields pointers. -/
theorem mapM_ptrs {f : Nat → Res Ptr} {h : Heap T} {n : Nat} {v : Nat → T}
    (P : Ptr → Prop)
    (hf : ∀ k, k < n → ∃ p, f k = .ok p ∧ Valid h p ∧ h.val p = v k ∧ P p) :
    ∃ ops, Res.mapM f (List.range n) = .ok ops ∧ ops.map h.val = (List.range n).map v ∧
      (∀ p ∈ ops, Valid h p ∧ P p) ∧ (∀ k, k < n → ∃ p, f k = .ok p ∧ ops[k]? = some p) := by
  have hch : ∀ k, ∃ p, k < n → (f k = .ok p ∧ Valid h p ∧ h.val p = v k ∧ P p) := by
    intro k
    by_cases hk : k < n
    · obtain ⟨p, hp⟩ := hf k hk; exact ⟨p, fun _ => hp⟩
    · exact ⟨0, fun h => absurd h hk⟩
  choose g hg using hch
  refine ⟨(List.range n).map g, mapM_ok fun k hk => (hg k (List.mem_range.1 hk)).1, ?_, ?_, ?_⟩
  · rw [List.map_map]
    exact List.map_congr_left fun k hk => (hg k (List.mem_range.1 hk)).2.2.1
  · intro p hp
    obtain ⟨k, hk, rfl⟩ := List.mem_map.1 hp
    have := hg k (List.mem_range.1 hk)
    exact ⟨this.2.1, this.2.2.2⟩
  · intro k hk
    exact ⟨g k, (hg k hk).1, by simp [hk]⟩

/-- Shapes equal outside `d` (`B.shape` is `A.shape` with extent `x` at `d`): `Concat` succeeds
and the result is the concatenation.  It is built of the arguments' own cells, so it shares
them; no cell is created or changed. -/
theorem C15_concat_partial (a b : Mat) (A B : STensor T) (h : Heap T) (ha : Holds h a A)
    (hb : Holds h b B) (d x : Nat) (hd : d < A.shape.length)
    (hcompat : B.shape = A.shape.set d x) :
    ∃ r, a.concat b d = .ok r ∧ Holds h r (A.concat B d) ∧ ∀ p ∈ r.ops, p ∈ a.ops ∨ p ∈ b.ops := by
  obtain ⟨hshape, hx, hxo⟩ := concat_shape (T := T) hd hcompat
  set shape := A.shape.set d (A.shape.getD d 0 + x) with hsh
  have hn : a.getSize + b.getSize = size shape := by
    unfold Mat.getSize
    rw [ha.len, hb.len, ha.shape, hb.shape, hcompat, hsh, size_set_add hd, set_getD_self hd]
  obtain ⟨ops, e1, e2, e3, -⟩ := mapM_ptrs (h := h) (n := size shape)
    (f := fun i => (reverseIndex (indexMul shape) shape i).bind fun idx =>
      Mat.concatPick a b d (A.shape.getD d 0) idx)
    (v := fun k => (A.concat B d).get (unflat shape k)) (fun p => p ∈ a.ops ∨ p ∈ b.ops)
    (fun k hk => by
      rw [indexMul_eq, reverseIndex_unflat hk, Res.bind_ok]
      exact concatPick_ok ha hb hd hcompat hk)
  refine ⟨⟨shape, indexMul shape, ops⟩, ?_, ?_, fun p hp => (e3 p hp).2⟩
  · unfold Mat.concat
    rw [ha.shape, hb.shape, Res.index_eq (show A.shape[d]? = some (A.shape.getD d 0) by simp [List.getD, hd]),
      Res.index_eq hxo]
    simp only [Res.bind_ok, ← hsh, hn]
    rw [e1]; rfl
  · refine holds_of_flat hshape.symm rfl (fun p hp => (e3 p hp).1) ?_
    rw [e2, flat_eq_range, hshape]

example : (match Mat.newFromValues [1, 2, 3, 4] [2, 2] (Heap.empty (0 : Int)) with
    | .ok a h => match Mat.newFromValues [5, 6] [2, 1] h with
      | .ok b h => match a.concat b 1 with
        | .ok r => (r.shape, r.getData h)
        | _ => ([], .panic)
      | _ => ([], .panic)
    | _ => ([], .panic)) = ([2, 3], .ok [1, 2, 5, 3, 4, 6]) := by decide

/-- Shapes that differ elsewhere are not rejected: concatenating 1×1 to 2×2 along dimension 0
"succeeds" with shape 3×2 but only five elements, and reading element (2,1) of the result
then fails. -/
theorem C15_concat_not_validated :
    ∃ r, (⟨[2, 2], [2, 1], [1, 2, 3, 4]⟩ : Mat).concat ⟨[1, 1], [1, 1], [5]⟩ 0 = .ok r ∧
      r.shape = [3, 2] ∧ r.ops.length = 5 ∧ InRange r.shape [2, 1] ∧
      r.getOperand [2, 1] = .err (.internalIndex 5 5) :=
  ⟨⟨[3, 2], [2, 1], [1, 2, 3, 4, 5]⟩, by decide, rfl, rfl, by decide, by decide⟩

/-! ### C16

`Reshape` should give `A.reshape shape` for every `shape`.  The immediate version does so
only when the number of elements is unchanged. -/

theorem C16_reshape_partial (a : Mat) (A : STensor T) (h : Heap T) (ha : Holds h a A)
    (hpos : 0 < h.next) (shape : List Nat) (hsz : dataSize shape = dataSize A.shape) :
    ∃ r h', a.reshape shape h = .ok r h' ∧ NewTensor h h' r (A.reshape shape) := by
  rw [dataSize_eq, dataSize_eq] at hsz
  have hl : a.getSize = size shape := by unfold Mat.getSize; rw [ha.len, ha.shape, hsz]
  obtain ⟨h', ops, e1, e2⟩ := alloc_newTensor (shape := shape) (t := A.reshape shape)
    (f := fun i h => h.loadAt a.ops i) (n := size shape) (h := h) hpos rfl rfl
    (fun k hk h' he => by
      have hk1 : k < size shape := hk
      have hk2 : k < size A.shape := hsz ▸ hk1
      rw [holds_loadAt ha he hk2]
      simp only [STensor.reshape, STensor.ofValues]
      rw [offset_unflat hk1]
      simp [List.getD, flat_getElem? hk2])
  refine ⟨_, h', ?_, e2⟩
  unfold Mat.reshape
  simp only [dataSize_eq, hl, lt_irrefl, if_false, e1, Out.bind_ok, Nat.sub_self,
    List.replicate_zero, List.append_nil]

/-- fewer elements: the program aborts -/
theorem C16_reshape_smaller_panics (a : Mat) (A : STensor T) (h : Heap T) (ha : Holds h a A)
    (shape : List Nat) (hsz : dataSize shape < dataSize A.shape) : a.reshape shape h = .panic := by
  rw [dataSize_eq, dataSize_eq] at hsz
  have hl : a.getSize = size A.shape := by unfold Mat.getSize; rw [ha.len, ha.shape]
  unfold Mat.reshape
  simp only [dataSize_eq, hl]
  rw [if_pos (by omega)]
  obtain ⟨h', e1, -⟩ := allocEach_ok (l := List.range (size shape)) (h := h)
    (f := fun i h => h.loadAt a.ops i) (v := fun k => A.get (unflat A.shape k))
    (fun i hi h' he => holds_loadAt ha he (by have := List.mem_range.1 hi; omega))
  rw [e1]
  simp only [Out.bind_ok]
  rw [if_pos hsz]

/-- more elements: the call returns a tensor whose extra elements are nil pointers, so
reading any of them aborts the program -/
theorem C16_reshape_larger_nil (a : Mat) (A : STensor T) (h : Heap T) (ha : Holds h a A)
    (shape : List Nat) (hsz : dataSize A.shape < dataSize shape) :
    ∃ r h', a.reshape shape h = .ok r h' ∧ r.shape = shape ∧
      ∀ idx, InRange shape idx → dataSize A.shape ≤ offset shape idx → r.get idx h' = .panic := by
  rw [dataSize_eq, dataSize_eq] at hsz
  have hl : a.getSize = size A.shape := by unfold Mat.getSize; rw [ha.len, ha.shape]
  unfold Mat.reshape
  simp only [dataSize_eq, hl]
  rw [if_neg (by omega)]
  obtain ⟨h', e1, -, -, -⟩ := allocEach_ok (l := List.range (size A.shape)) (h := h)
    (f := fun i h => h.loadAt a.ops i) (v := fun k => A.get (unflat A.shape k))
    (fun i hi h' he => holds_loadAt ha he (List.mem_range.1 hi))
  rw [e1]
  simp only [Out.bind_ok, lt_irrefl, if_false, List.length_range]
  refine ⟨_, h', rfl, rfl, ?_⟩
  intro idx hr ho
  unfold Mat.get
  have hlt := offset_lt hr
  rw [getOperand_ok (m := ⟨shape, indexMul shape, _⟩) (p := 0) (by simp) hr]
  · rfl
  · rw [List.getElem?_append_right (by simpa using ho)]
    rw [List.getElem?_replicate]; simp; omega

example : ∃ h a A, Holds (T := Int) h a A ∧ 0 < h.next ∧ dataSize [4] = dataSize A.shape :=
  ⟨⟨fun _ => 7, 5⟩, ⟨[2, 2], [2, 1], [1, 2, 3, 4]⟩, ⟨[2, 2], fun _ => 7⟩,
    holds_of_flat rfl (by decide)
      (by intro p hp; simp at hp; rcases hp with rfl | rfl | rfl | rfl <;> constructor <;> decide)
      (by decide), by decide, by decide⟩

end Godeep.Props
