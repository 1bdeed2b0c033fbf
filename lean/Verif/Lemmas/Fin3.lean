import Verif.Lemmas.Fin2
import Verif.Props.MatStruct
/-
  `BuildGraph` of Concat and Dot.
-/
set_option linter.unusedSectionVars false

namespace Godeep
open Spec GoNum

variable {T : Type} [GoNum T] {get : Nat → Mat} {s : FSt T}

theorem _root_.Godeep.Spec.GoodMat.any {h h' : Heap T} {m : Mat} (G : GoodMat h m)
    (he : h'.next = h.next) : GoodMat h' m := G.mono (by omega)

theorem pickLoop_inv {g : Nat → Res Ptr} :
    ∀ (l : List Nat) (acc : List Ptr) (s s' : FSt T),
      FSt.pickLoop (fun i h => (g i).map fun p => (p, h)) l acc s = .ok () s' →
      ∃ ps, ps.length = l.length ∧ s' = { s with mat := { s.mat with ops := acc ++ ps } } ∧
        ∀ (k i : Nat), l[k]? = some i → ∃ p, ps[k]? = some p ∧ g i = .ok p := by
  intro l
  induction l with
  | nil =>
    intro acc s s' h
    simp only [FSt.pickLoop, Out.ok.injEq, true_and] at h
    exact ⟨[], rfl, by simp [← h], by simp⟩
  | cons i l ih =>
    intro acc s s' h
    simp only [FSt.pickLoop] at h
    cases hg : g i with
    | ok p =>
      rw [hg] at h
      obtain ⟨ps, h1, h2, h3⟩ := ih _ _ _ h
      refine ⟨p :: ps, by simp [h1], by rw [h2]; simp, ?_⟩
      intro k j hk
      cases k with
      | zero => simp only [List.getElem?_cons_zero, Option.some.injEq] at hk; subst hk; exact ⟨p, rfl, hg⟩
      | succ k => simpa using h3 k j (by simpa using hk)
    | err e => rw [hg] at h; cases h
    | panic => rw [hg] at h; cases h

theorem getOperand_mem {m : Mat} {i : List Nat} {p : Ptr} (h : m.getOperand i = .ok p) : p ∈ m.ops := by
  unfold Mat.getOperand at h
  obtain ⟨k, _, h⟩ := res_bind_ok h
  by_cases hk : k ≥ m.ops.length
  · rw [if_pos hk] at h; cases h
  · rw [if_neg hk] at h
    unfold Res.index at h
    split at h
    · rename_i a ha
      injection h with h
      subst h
      exact List.mem_of_getElem? ha
    · cases h

theorem firstDiff_set (l : List Nat) (d x pos : Nat) :
    firstDiff l (l.set d x) pos = -1 ∨ firstDiff l (l.set d x) pos = ((pos + d : Nat) : Int) := by
  induction l generalizing d pos with
  | nil => left; rfl
  | cons y l ih =>
    cases d with
    | zero =>
      simp only [List.set_cons_zero, firstDiff]
      split
      · right; simp
      · left
        exact (firstDiff_neg rfl _).2 rfl
    | succ d =>
      simp only [List.set_cons_succ, firstDiff, ne_eq, not_true_eq_false, if_false]
      rcases ih d (pos + 1) with h | h
      · left; exact h
      · right; rw [h]; congr 1; omega

theorem fin_concat_ok {d a b : Nat} (ga : GoodMat s.heap (get a)) (gb : GoodMat s.heap (get b))
    {s' : FSt T} (hrun : Fin.run get (.concat d a b) s = .ok () s') :
    FinOK (.concat d a b) get s s' := by
  simp only [Fin.run, Fin.concat] at hrun
  split at hrun
  · cases hrun
  split at hrun
  · cases hrun
  split at hrun
  · rename_i x y hx hy
    generalize hshape : (get a).shape.set d (x + y) = shape at hrun
    have hfun : (fun (i : Nat) (h : Heap T) => (reverseIndex (indexMul shape) shape i).bind fun idx =>
        (Mat.concatPick (get a) (get b) d x idx).map fun p => (p, h)) =
        fun i h => ((reverseIndex (indexMul shape) shape i).bind fun idx =>
          Mat.concatPick (get a) (get b) d x idx).map fun p => (p, h) := by
      funext i h
      cases reverseIndex (indexMul shape) shape i <;> rfl
    rw [hfun] at hrun
    obtain ⟨ps, h1, rfl, h3⟩ := pickLoop_inv _ _ _ _ hrun
    simp only [dataSize_eq, List.length_range] at h1 h3
    simp only [List.nil_append]
    refine finOK_view h1 ?_ trivial ?_
    · intro p hp
      obtain ⟨k, hk⟩ := List.mem_iff_getElem?.1 hp
      have hkl : k < size shape := by rw [← h1]; exact (List.getElem?_eq_some_iff.1 hk).1
      obtain ⟨p', hp1, hp2⟩ := h3 k k (List.getElem?_range hkl)
      rw [hk] at hp1
      injection hp1 with hp1
      subst hp1
      obtain ⟨idx, _, hp2⟩ := res_bind_ok hp2
      unfold Mat.concatPick at hp2
      split at hp2
      · cases hp2
      · split at hp2
        · exact ga.valid _ (getOperand_mem hp2)
        · exact gb.valid _ (getOperand_mem hp2)
    · intro val u hu
      by_cases hc : d < (get a).shape.length ∧
          (get b).shape = (get a).shape.set d ((get b).shape.getD d 0)
      · have hden : (Kind.concat d a b : Kind T).den val shape (fun c => ofMat val (get c)) =
            some ((ofMat val (get a)).concat (ofMat val (get b)) d) := if_pos hc
        rw [hden] at hu
        obtain ⟨hd, hcompat⟩ := hc
        rw [Option.some.injEq] at hu
        subst hu
        have hx' : (get a).shape.getD d 0 = x := by simp [List.getD, hx]
        have hy' : (get b).shape.getD d 0 = y := by simp [List.getD, hy]
        rw [hy'] at hcompat
        have hHa := good_holds (ga.any (h' := ⟨val, s.heap.next⟩) rfl)
        have hHb := good_holds (gb.any (h' := ⟨val, s.heap.next⟩) rfl)
        obtain ⟨c1, -, -⟩ := Props.concat_shape (A := ofMat val (get a)) (B := ofMat val (get b)) hd hcompat
        simp only [ofMat_shape, hx', hshape] at c1
        refine ⟨c1.symm, ?_⟩
        rw [flat_eq_range, c1]
        apply List.ext_getElem?
        intro k
        rw [List.getElem?_map, List.getElem?_map]
        by_cases hk : k < size shape
        · obtain ⟨p, hp1, hp2⟩ := h3 k k (List.getElem?_range hk)
          obtain ⟨q, q1, q2, q3, q4⟩ := Props.concatPick_ok hHa hHb (d := d) hd hcompat (k := k)
            (by simp only [ofMat_shape, hx', hshape]; exact hk)
          simp only [ofMat_shape, hx', hshape] at q1 q3
          rw [indexMul_eq, reverseIndex_unflat hk, Res.bind_ok, q1] at hp2
          injection hp2 with hp2
          subst hp2
          rw [hp1, List.getElem?_range hk]
          simp only [Option.map_some]
          exact congrArg some q3
        · rw [List.getElem?_eq_none (by simp only; omega), List.getElem?_eq_none (by simpa using hk)]; rfl
      · have hden : (Kind.concat d a b : Kind T).den val shape (fun c => ofMat val (get c)) = none :=
          if_neg hc
        rw [hden] at hu; cases hu
  · cases hrun

theorem fin_concat_run {d a b : Nat} (ga : GoodMat s.heap (get a)) (gb : GoodMat s.heap (get b))
    (hd : d < (get a).shape.length)
    (hc : (get b).shape = (get a).shape.set d ((get b).shape.getD d 0)) :
    ∃ s', Fin.run get (.concat d a b) s = .ok () s' := by
  have hHa := good_holds ga
  have hHb := good_holds gb
  generalize hy : (get b).shape.getD d 0 = y at hc
  have hdb : d < (get b).shape.length := by rw [hc]; simpa using hd
  have h1 : shapeEquals (get a).shape (get b).shape = -1 ∨
      shapeEquals (get a).shape (get b).shape = (d : Int) := by
    unfold shapeEquals
    rw [hc, if_neg (by simp)]
    simpa using firstDiff_set (get a).shape d y 0
  simp only [Fin.run, Fin.concat]
  rw [if_neg (by omega), if_neg (by omega)]
  rw [Props.shape_index hd, Props.shape_index hdb]
  simp only [hy]
  generalize hx : (get a).shape.getD d 0 = x
  have key : ∀ i, i < size ((get a).shape.set d (x + y)) → ∃ p,
      Mat.concatPick (get a) (get b) d x (unflat ((get a).shape.set d (x + y)) i) = .ok p := by
    intro i hi
    obtain ⟨q, q1, -⟩ := Props.concatPick_ok hHa hHb (d := d) hd hc (k := i)
      (by simp only [ofMat_shape, hx]; exact hi)
    simp only [ofMat_shape, hx] at q1
    exact ⟨q, q1⟩
  choose! p hp using key
  rw [pickLoop_pure (p := p)]
  · exact ⟨_, rfl⟩
  · intro i hi
    rw [dataSize_eq] at hi
    have hi' := List.mem_range.1 hi
    rw [indexMul_eq, reverseIndex_unflat hi', Res.bind_ok, hp i hi', Res.map_ok]

/-! ### Dot -/

theorem dotRow_ok {a b : Mat} {da db : Nat} {indA indB : List Nat} {pa pb : Nat → Ptr} :
    ∀ (l : List Nat) (acc : List Ptr) (s : FSt T),
      (∀ i ∈ l, a.getOperand (indA.set da i) = .ok (pa i) ∧ b.getOperand (indB.set db i) = .ok (pb i)) →
      Fin.dotRow a b da db indA indB l acc s =
        .ok (some (acc ++ List.range' s.heap.next l.length))
          ⟨allocZ l.length s.heap, s.ctx ++ asgs s.heap.next (l.map fun i => .mul (pa i) (pb i)), s.mat⟩ := by
  intro l
  induction l with
  | nil => intro acc s _; simp [Fin.dotRow, allocZ_zero, asgs]
  | cons i l ih =>
    intro acc s hf
    obtain ⟨h1, h2⟩ := hf i (by simp)
    simp only [Fin.dotRow, h1, h2]
    rw [ih _ _ (fun j hj => hf j (by simp [hj]))]
    simp only [FSt.emit, allocZ_succ, List.length_cons, List.map_cons, asgs, List.range'_succ]
    simp [Heap.alloc]

theorem dotRows_ok {a b : Mat} {n da db dim lo : Nat} {base : Nat} {pa pb : Nat → Nat → Ptr}
    {mat : Mat} (hbase : base ≤ lo) :
    ∀ (is : List Nat) (s : FSt T), s.mat = mat → is.Nodup → (∀ i ∈ is, lo + i < s.heap.next) →
      (∀ i ∈ is, ∃ idx, reverseIndex mat.mul mat.shape i = .ok idx ∧ mat.ops[i]? = some (lo + i) ∧
        ∀ k, k < n → a.getOperand ((Mat.spread (idx.take dim) da).set da k) = .ok (pa i k) ∧
          b.getOperand ((Mat.spread (idx.drop dim) db).set db k) = .ok (pb i k)) →
      (∀ i ∈ is, ∀ k, k < n → 0 < pa i k ∧ pa i k < base ∧ 0 < pb i k ∧ pb i k < base) →
      ∃ new, Fin.dotRows a b n da db dim is s =
          .ok () ⟨allocZ (is.length * n) s.heap, s.ctx ++ new, mat⟩ ∧
        SSA new ∧
        (∀ q ∈ dsts new, (∃ i ∈ is, q = lo + i) ∨ s.heap.next ≤ q ∧ q < s.heap.next + is.length * n) ∧
        (∀ o ∈ new, ∀ q ∈ o.reads, 0 < q ∧ q < base ∨
          s.heap.next ≤ q ∧ q < s.heap.next + is.length * n) ∧
        (n ≠ 0 → ∀ o ∈ new, ArgsNonempty o) ∧
        (n = 0 → is ≠ [] → ∃ o ∈ new, ¬ ArgsNonempty o) ∧
        ∀ h' : Heap T, Sat new h' → ∀ i ∈ is, h'.val (lo + i) =
          sum1 ((List.range n).map fun k => GoNum.mul (h'.val (pa i k)) (h'.val (pb i k))) := by
  intro is
  induction is with
  | nil =>
    intro s hs _ _ _ _
    refine ⟨[], ?_, trivial, by simp, by simp, by simp, by simp, by simp⟩
    simp only [Fin.dotRows, List.length_nil, Nat.zero_mul, allocZ_zero, List.append_nil, ← hs]
  | cons i is ih =>
    intro s hs hnd hlt hidx hp
    obtain ⟨idx, hr, hc, hops⟩ := hidx i (by simp)
    have hnd' := List.nodup_cons.1 hnd
    have hlti := hlt i (by simp)
    set row := asgs s.heap.next ((List.range n).map fun k => (.mul (pa i k) (pb i k) : Rhs T)) with hrow
    set sm := (Op.asg (lo + i) (.sum (List.range' s.heap.next n)) : Op T) with hsm
    obtain ⟨new, e1, e2, e3, e4, e5, e7, e6⟩ := ih
      ⟨allocZ n s.heap, (s.ctx ++ row) ++ [sm], mat⟩ rfl hnd'.2
      (fun j hj => by have := hlt j (by simp [hj]); simp only [allocZ_next]; omega)
      (fun j hj => hidx j (by simp [hj])) (fun j hj => hp j (by simp [hj]))
    simp only [allocZ_next] at e3 e4
    have hlen : (i :: is).length * n = n + is.length * n := by simp [Nat.add_mul]; omega
    have hdr : ∀ q ∈ dsts row, s.heap.next ≤ q ∧ q < s.heap.next + n := by
      intro q hq; rw [hrow, mem_dsts_asgs] at hq; simpa using hq
    have hrr : ∀ o ∈ row, ∃ k, k < n ∧ o = .asg (s.heap.next + k) (.mul (pa i k) (pb i k)) := by
      intro o ho
      obtain ⟨k, r, h1, rfl⟩ := of_mem_asgs ho
      rw [List.getElem?_map] at h1
      simp only [Option.map_eq_some_iff] at h1
      obtain ⟨j, hj, rfl⟩ := h1
      have hk : k < n := by
        have := (List.getElem?_eq_some_iff.1 hj).1; simpa using this
      rw [List.getElem?_range hk] at hj
      injection hj with hj
      subst hj
      exact ⟨k, hk, rfl⟩
    refine ⟨row ++ [sm] ++ new, ?_, ?_, ?_, ?_, ?_, ?_, ?_⟩
    · simp only [Fin.dotRows, hs, hr, Res.bind_ok, Res.index_eq hc, Res.map_ok]
      rw [dotRow_ok (pa := pa i) (pb := pb i) (List.range n) [] s
        (fun k hk => hops k (List.mem_range.1 hk))]
      simp only [Out.bind_ok, List.length_range, List.nil_append, FSt.push, hs]
      rw [e1, hlen]
      simp only [List.append_assoc]
      congr 2
      unfold allocZ
      congr 1
      · funext q
        simp only
        split_ifs <;> first | rfl | omega
      · simp only; omega
    · refine ssa_append (ssa_append (ssa_asgs (lo0 := base) (by omega) ?_) ⟨?_, by simp, trivial⟩ ?_ ?_) e2 ?_ ?_
      · intro r hr q hq
        obtain ⟨k, hk, rfl⟩ := List.mem_map.1 hr
        have := hp i (by simp) k (List.mem_range.1 hk)
        simp only [Rhs.reads, List.mem_cons, List.not_mem_nil, or_false] at hq
        rcases hq with rfl | rfl <;> omega
      · intro q hq
        simp only [Op.dst, Option.some.injEq, hsm] at hq
        subst hq
        refine ⟨?_, by simp⟩
        simp only [hsm, Op.reads, Rhs.reads, List.mem_range'_1]; omega
      · intro q hq hq2
        have := hdr q hq
        simp [hsm] at hq2; omega
      · intro o ho q hq
        simp only [hsm, dsts_asg, dsts_nil, List.mem_cons, List.not_mem_nil, or_false] at hq
        subst hq
        obtain ⟨k, hk, rfl⟩ := hrr o ho
        have := hp i (by simp) k hk
        simp only [Op.reads, Rhs.reads, List.mem_cons, List.not_mem_nil, or_false]; omega
      · intro q hq hq2
        rcases e3 q hq2 with ⟨j, hj, rfl⟩ | hq2
        · simp only [dsts_append, List.mem_append, hsm, dsts_asg, dsts_nil, List.mem_cons,
            List.not_mem_nil, or_false] at hq
          rcases hq with hq | hq
          · have := hdr _ hq
            have := hlt j (by simp [hj]); omega
          · have : j = i := by omega
            exact hnd'.1 (this ▸ hj)
        · simp only [dsts_append, List.mem_append, hsm, dsts_asg, dsts_nil, List.mem_cons,
            List.not_mem_nil, or_false] at hq
          rcases hq with hq | hq
          · have := hdr _ hq; omega
          · omega
      · intro o ho q hq hq2
        have hq' : q < base ∨ s.heap.next ≤ q ∧ q < s.heap.next + n := by
          rcases List.mem_append.1 ho with ho | ho
          · obtain ⟨k, hk, rfl⟩ := hrr o ho
            have := hp i (by simp) k hk
            simp only [Op.reads, Rhs.reads, List.mem_cons, List.not_mem_nil, or_false] at hq2; omega
          · simp only [List.mem_cons, List.not_mem_nil, or_false] at ho
            subst ho
            simp only [hsm, Op.reads, Rhs.reads, List.mem_range'_1] at hq2; omega
        rcases e3 q hq with ⟨j, hj, rfl⟩ | hq3
        · have := hlt j (by simp [hj]); omega
        · omega
    · intro q hq
      rw [hlen]
      simp only [dsts_append, List.mem_append, hsm, dsts_asg, dsts_nil, List.mem_cons,
        List.not_mem_nil, or_false] at hq
      rcases hq with (hq | hq) | hq
      · have := hdr _ hq; right; omega
      · left; exact ⟨i, by simp, hq⟩
      · rcases e3 q hq with ⟨j, hj, rfl⟩ | hq3
        · left; exact ⟨j, by simp [hj], rfl⟩
        · right; omega
    · intro o ho q hq
      rw [hlen]
      simp only [List.mem_append] at ho
      rcases ho with (ho | ho) | ho
      · obtain ⟨k, hk, rfl⟩ := hrr o ho
        have := hp i (by simp) k hk
        simp only [Op.reads, Rhs.reads, List.mem_cons, List.not_mem_nil, or_false] at hq; omega
      · simp only [List.mem_cons, List.not_mem_nil, or_false] at ho
        subst ho
        simp only [hsm, Op.reads, Rhs.reads, List.mem_range'_1] at hq; omega
      · have := e4 o ho q hq; omega
    · intro hn o ho
      simp only [List.mem_append] at ho
      rcases ho with (ho | ho) | ho
      · obtain ⟨k, hk, rfl⟩ := hrr o ho; trivial
      · simp only [List.mem_cons, List.not_mem_nil, or_false] at ho
        subst ho
        intro hc
        have := congrArg List.length hc
        simp at this; exact hn this
      · exact e5 hn o ho
    · intro hn _
      exact ⟨sm, by simp, by simp [hsm, ArgsNonempty, hn]⟩
    · intro h' hsat j hj
      rw [sat_append, sat_append] at hsat
      obtain ⟨⟨s1, s2⟩, s3⟩ := hsat
      rcases List.mem_cons.1 hj with rfl | hj
      · have := sum_eval (s2 _ _ (List.mem_singleton.2 hsm.symm))
        rw [this]
        congr 1
        apply List.ext_getElem?
        intro k
        rw [List.getElem?_map, List.getElem?_map]
        by_cases hk : k < n
        · rw [List.getElem?_range' hk, List.getElem?_range hk]
          simp only [Option.map_some, Option.some.injEq, Nat.one_mul]
          exact arith_eval (o := .mul) (s1 _ _ (mem_asgs (i := k) (by
            rw [List.getElem?_map, List.getElem?_range hk]; rfl)))
        · rw [List.getElem?_eq_none (by simpa using hk), List.getElem?_eq_none (by simpa using hk)]; rfl
      · exact e6 h' s3 j hj

theorem fin_dot {dims : Option (Nat × Nat)} {a b : Nat} (hpos : 0 < s.heap.next)
    (ga : GoodMat s.heap (get a)) (gb : GoodMat s.heap (get b))
    (hd : (dotDims dims (get a).shape (get b).shape).1 < (get a).shape.length ∧
      (dotDims dims (get a).shape (get b).shape).2 < (get b).shape.length ∧
      (get a).shape.getD (dotDims dims (get a).shape (get b).shape).1 0 =
        (get b).shape.getD (dotDims dims (get a).shape (get b).shape).2 0) :
    ∃ s', Fin.run get (.dot dims a b) s = .ok () s' ∧ FinOK (.dot dims a b) get s s' := by
  have hda : Fin.dimA dims (get a) = (dotDims dims (get a).shape (get b).shape).1 := by
    cases dims <;> rfl
  have hdb : Fin.dimB dims (get b) = (dotDims dims (get a).shape (get b).shape).2 := by
    cases dims with
    | some d => rfl
    | none => simp only [dotDims, Fin.dimB]; split <;> omega
  generalize hdd : dotDims dims (get a).shape (get b).shape = dd at hd hda hdb
  obtain ⟨da, db⟩ := dd
  simp only at hd hda hdb
  obtain ⟨h1, h2, h3⟩ := hd
  simp only [Fin.run, Fin.dot, hda, hdb]
  rw [if_neg (by omega), Props.shape_index h1, Props.shape_index h2]
  simp only [h3, ne_eq, not_true_eq_false, if_false]
  by_cases hv : (get a).shape.length = 1 ∧ (get b).shape.length = 1
  · -- two vectors
    rw [if_pos hv]
    obtain ⟨x, hx⟩ := List.length_eq_one_iff.1 hv.1
    obtain ⟨y, hy⟩ := List.length_eq_one_iff.1 hv.2
    have hda0 : da = 0 := by omega
    have hdb0 : db = 0 := by omega
    subst hda0; subst hdb0
    have hxy : x = y := by simpa [hx, hy] using h3
    subst hxy
    have hla : (get a).ops.length = x := by rw [ga.len, hx]; simp [size]
    have hlb : (get b).ops.length = x := by rw [gb.len, hy]; simp [size]
    simp only [Fin.dotVector, Mat.getSize, hla, hlb, ne_eq, not_true_eq_false, if_false]
    set pa := fun i => (get a).ops.getD i 0 with hpa
    set pb := fun i => (get b).ops.getD i 0 with hpb
    have hga : ∀ i, i < x → (get a).ops[i]? = some (pa i) := by
      intro i hi
      have : i < (get a).ops.length := by omega
      simp [hpa, List.getD, this]
    have hgb : ∀ i, i < x → (get b).ops[i]? = some (pb i) := by
      intro i hi
      have : i < (get b).ops.length := by omega
      simp [hpb, List.getD, this]
    rw [emitLoop_ok (r := fun i => .mul (pa i) (pb i)) (List.range x) [] s (by
      intro i hi
      have hi' := List.mem_range.1 hi
      simp only [Res.index_eq (hga i hi'), Res.index_eq (hgb i hi'), Res.bind_ok, Res.map_ok])]
    simp only [Out.bind_ok, List.length_range, List.nil_append, FSt.emit]
    set row := asgs s.heap.next ((List.range x).map fun k => (.mul (pa k) (pb k) : Rhs T)) with hrow
    set lo := s.heap.next with hlo
    have hra : ∀ k, k < x → Valid s.heap (pa k) ∧ Valid s.heap (pb k) := fun k hk =>
      ⟨ga.valid _ (List.mem_of_getElem? (hga k hk)), gb.valid _ (List.mem_of_getElem? (hgb k hk))⟩
    have hrr : ∀ o ∈ row, ∃ k, k < x ∧ o = .asg (lo + k) (.mul (pa k) (pb k)) := by
      intro o ho
      obtain ⟨k, r, h1, rfl⟩ := of_mem_asgs ho
      rw [List.getElem?_map] at h1
      simp only [Option.map_eq_some_iff] at h1
      obtain ⟨j, hj, rfl⟩ := h1
      have hk : k < x := by
        have := (List.getElem?_eq_some_iff.1 hj).1; simpa using this
      rw [List.getElem?_range hk] at hj
      injection hj with hj
      subst hj
      exact ⟨k, hk, rfl⟩
    refine ⟨_, rfl, (extends_allocZ _ _).trans (extends_alloc _ _), ⟨rfl, rfl, ?_⟩,
      (by simp only [alloc_eq_allocZ, allocZ_allocZ]; exact allocZ_val _ _), row ++ [.asg (lo + x) (.sum (List.range' lo x))], by simp [hrow]; exact hlo.symm, ?_, ?_, ?_, ?_, ?_⟩
    · intro p hp
      simp only [allocZ_next, List.mem_cons, List.not_mem_nil, or_false] at hp
      subst hp
      exact ⟨by omega, by simp [Heap.alloc]⟩
    · intro q hq
      simp only [dsts_append, List.mem_append, hrow, mem_dsts_asgs, List.length_map, List.length_range,
        dsts_asg, dsts_nil, List.mem_cons, List.not_mem_nil, or_false] at hq
      simp only [Heap.alloc, allocZ_next, ← hlo]; omega
    · intro o ho q hq
      simp only [Heap.alloc, allocZ_next, ← hlo]
      rcases List.mem_append.1 ho with ho | ho
      · obtain ⟨k, hk, rfl⟩ := hrr o ho
        have := hra k hk
        simp only [Op.reads, Rhs.reads, List.mem_cons, List.not_mem_nil, or_false] at hq
        obtain ⟨⟨u1, u2⟩, ⟨u3, u4⟩⟩ := this
        rcases hq with rfl | rfl <;> omega
      · simp only [List.mem_cons, List.not_mem_nil, or_false] at ho
        subst ho
        simp only [Op.reads, Rhs.reads, List.mem_range'_1] at hq; omega
    · intro hne o ho
      simp only [Kind.redOK, hdd] at hne
      rcases List.mem_append.1 ho with ho | ho
      · obtain ⟨k, hk, rfl⟩ := hrr o ho; trivial
      · simp only [List.mem_cons, List.not_mem_nil, or_false] at ho
        subst ho
        intro hc
        have := congrArg List.length hc
        simp at this
        simp [hx, hy, this, size] at hne
    · intro hne
      simp only [Kind.redOK, hdd] at hne
      simp only [hx, hy] at hne
      refine ⟨_, List.mem_append_right _ (List.mem_singleton.2 rfl), ?_⟩
      have : x = 0 := by simpa [size] using hne
      simp [ArgsNonempty, this]
    · intro h h' _ he u hu
      simp only [Kind.den, ofMat_shape, hdd] at hu
      rw [if_pos ⟨h1, h2, h3⟩, if_pos hv, Option.some.injEq] at hu
      subst hu
      have hssa : SSA (row ++ [.asg (lo + x) (.sum (List.range' lo x))]) := by
        refine ssa_append (ssa_asgs (lo0 := lo) (le_refl _) ?_) ⟨?_, by simp, trivial⟩ ?_ ?_
        · intro r hr q hq
          obtain ⟨k, hk, rfl⟩ := List.mem_map.1 hr
          obtain ⟨⟨u1, u2⟩, ⟨u3, u4⟩⟩ := hra k (List.mem_range.1 hk)
          simp only [Rhs.reads, List.mem_cons, List.not_mem_nil, or_false] at hq
          rcases hq with rfl | rfl <;> omega
        · intro q hq
          simp only [Op.dst, Option.some.injEq] at hq
          subst hq
          refine ⟨?_, by simp⟩
          simp only [Op.reads, Rhs.reads, List.mem_range'_1]; omega
        · intro q hq hq2
          rw [hrow, mem_dsts_asgs] at hq
          simp at hq hq2; omega
        · intro o ho q hq
          simp only [dsts_asg, dsts_nil, List.mem_cons, List.not_mem_nil, or_false] at hq
          subst hq
          obtain ⟨k, hk, rfl⟩ := hrr o ho
          obtain ⟨⟨u1, u2⟩, ⟨u3, u4⟩⟩ := hra k hk
          simp only [Op.reads, Rhs.reads, List.mem_cons, List.not_mem_nil, or_false]; omega
      have hsat := exec_ssa hssa he
      rw [sat_append] at hsat
      refine ⟨rfl, ?_⟩
      simp only [allocZ_next, ← hlo, List.map_cons, List.map_nil]
      rw [sum_eval (hsat.2 (lo + x) _ (by simp; rfl))]
      simp only [STensor.flat, STensor.dotVec, ofMat_shape, hx, allIdx]
      simp only [List.range_one, List.flatMap_cons, List.flatMap_nil, List.map_cons, List.map_nil,
        List.append_nil, List.getD_cons_zero, List.cons.injEq, and_true]
      congr 1
      apply List.ext_getElem?
      intro k
      rw [List.getElem?_map, List.getElem?_map]
      by_cases hk : k < x
      · rw [List.getElem?_range' hk, List.getElem?_range hk]
        simp only [Option.map_some, Option.some.injEq, Nat.one_mul]
        have := arith_eval (o := .mul) (hsat.1 _ _ (mem_asgs (i := k) (r := .mul (pa k) (pb k)) (by
          rw [List.getElem?_map, List.getElem?_range hk]; rfl)))
        rw [this]
        have g1 : (ofMat h'.val (get a)).get [k] = h'.val (pa k) := by
          simp [ofMat, STensor.ofValues, hx, offset, size, List.getD, hga k hk]
        have g2 : (ofMat h'.val (get b)).get [k] = h'.val (pb k) := by
          simp [ofMat, STensor.ofValues, hy, offset, size, List.getD, hgb k hk]
        rw [g1, g2]; rfl
      · rw [List.getElem?_eq_none (by simpa using hk), List.getElem?_eq_none (by simpa using hk)]; rfl
  · rw [if_neg hv]
    have hs2 : (get a).shape.eraseIdx da ++ List.take db (get b).shape ++ List.drop (db + 1) (get b).shape =
        (get a).shape.eraseIdx da ++ (get b).shape.eraseIdx db := by
      rw [List.append_assoc, ← List.eraseIdx_eq_take_drop_succ]
    simp only [hs2, zeros_eq, dataSize_eq, List.length_range']
    generalize hshape : (get a).shape.eraseIdx da ++ (get b).shape.eraseIdx db = shape
    generalize hn : (get b).shape.getD db 0 = n at h3
    have hlA : ((get a).shape.eraseIdx da).length = (get a).shape.length - 1 := List.length_eraseIdx_of_lt h1
    have hsz : ((ofMat (fun _ => zero : Ptr → T) (get a)).dot sum1 (ofMat (fun _ => zero : Ptr → T) (get b)) da db).shape = shape := hshape
    have key : ∀ i k, i < size shape → k < n → ∃ p q, p ∈ (get a).ops ∧ q ∈ (get b).ops ∧
        (get a).getOperand ((Mat.spread ((unflat shape i).take ((get a).shape.eraseIdx da).length) da).set da k) = .ok p ∧
        (get b).getOperand ((Mat.spread ((unflat shape i).drop ((get a).shape.eraseIdx da).length) db).set db k) = .ok q ∧
        (∀ val : Ptr → T, val p = (ofMat val (get a)).get
          (((unflat shape i).take ((get a).shape.eraseIdx da).length).insertIdx da k)) ∧
        ∀ val : Ptr → T, val q = (ofMat val (get b)).get
          (((unflat shape i).drop ((get a).shape.eraseIdx da).length).insertIdx db k) := by
      intro i k hi hk
      have hr := unflat_inRange hi
      have hia : InRange ((get a).shape.eraseIdx da) ((unflat shape i).take ((get a).shape.eraseIdx da).length) := by
        have := inRange_take hr ((get a).shape.eraseIdx da).length
        rw [← hshape] at this ⊢
        simpa using this
      have hib : InRange ((get b).shape.eraseIdx db) ((unflat shape i).drop ((get a).shape.eraseIdx da).length) := by
        have := inRange_drop hr ((get a).shape.eraseIdx da).length
        rw [← hshape] at this ⊢
        simpa using this
      have hla : da ≤ ((unflat shape i).take ((get a).shape.eraseIdx da).length).length := by
        rw [inRange_length hia, hlA]; omega
      have hlb : db ≤ ((unflat shape i).drop ((get a).shape.eraseIdx da).length).length := by
        rw [inRange_length hib, List.length_eraseIdx_of_lt h2]; omega
      obtain ⟨p, p1, p2, p3⟩ := good_operand ga (inRange_insertIdx h1 hia (k := k) (by omega))
      obtain ⟨q, q1, q2, q3⟩ := good_operand gb (inRange_insertIdx h2 hib (k := k) (by omega))
      exact ⟨p, q, p2, q2, by rw [spread_set _ _ _ hla]; exact p1, by rw [spread_set _ _ _ hlb]; exact q1, p3, q3⟩
    choose! pa pb k1 k2 k3 k4 k5 k6 using key
    generalize hm : (⟨shape, indexMul shape, List.range' s.heap.next (size shape)⟩ : Mat) = mat
    have hm1 : mat.shape = shape := by rw [← hm]
    have hm2 : mat.mul = strides shape := by rw [← hm]; simp
    have hm3 : mat.ops = List.range' s.heap.next (size shape) := by rw [← hm]
    obtain ⟨new, e1, e2, e3, e4, e5, e7, e6⟩ := dotRows_ok (a := get a) (b := get b) (n := n) (da := da) (db := db)
      (dim := ((get a).shape.eraseIdx da).length) (lo := s.heap.next) (base := s.heap.next)
      (pa := pa) (pb := pb) (mat := mat) (le_refl _) (List.range (size shape))
      { s with heap := allocZ (size shape) s.heap, mat := mat } rfl List.nodup_range
      (fun i hi => by simp only [allocZ_next]; have := List.mem_range.1 hi; omega)
      (fun i hi => by
        have hi' := List.mem_range.1 hi
        refine ⟨unflat shape i, ?_, ?_, fun k hk => ⟨k3 i k hi' hk, k4 i k hi' hk⟩⟩
        · rw [hm1, hm2, reverseIndex_unflat hi']
        · rw [hm3, List.getElem?_range' hi']; simp)
      (fun i hi k hk => by
        have hi' := List.mem_range.1 hi
        have u1 := ga.valid _ (k1 i k hi' hk)
        have u2 := gb.valid _ (k2 i k hi' hk)
        exact ⟨u1.1, u1.2, u2.1, u2.2⟩)
    simp only [List.length_range, allocZ_next] at e1 e3 e4
    refine ⟨_, e1, (extends_allocZ _ _).trans (extends_allocZ _ _), ?_,
      (by simp only [allocZ_allocZ]; exact allocZ_val _ _), new, rfl, ?_, ?_, ?_, ?_, ?_⟩
    · refine ⟨by rw [hm2, hm1]; simp, by rw [hm3, hm1]; simp, fun p hp => ?_⟩
      simp only at hp
      rw [hm3, List.mem_range'_1] at hp
      exact ⟨by omega, by simp only [allocZ_next]; omega⟩
    · intro q hq
      simp only [allocZ_next]
      rcases e3 q hq with ⟨i, hi, rfl⟩ | hq
      · have := List.mem_range.1 hi; omega
      · omega
    · intro o ho q hq
      simp only [allocZ_next]
      rcases e4 o ho q hq with hq | hq <;> omega
    · intro hne
      simp only [Kind.redOK, hdd, hshape] at hne
      rcases hne with hne | hne
      · exact e5 (by omega)
      · intro o ho
        by_cases hn0 : n = 0
        · rw [hne] at e1
          simp only [List.range_zero, Fin.dotRows, Out.ok.injEq, true_and, FSt.mk.injEq] at e1
          have : new = [] := by simpa using e1.2.1
          rw [this] at ho; simp at ho
        · exact e5 hn0 o ho
    · intro hne
      simp only [Kind.redOK, hdd, hshape, not_or, not_not] at hne
      refine e7 (by omega) ?_
      intro hc
      have := congrArg List.length hc
      simp at this; exact hne.2 this
    · intro h h' _ he u hu
      simp only [Kind.den, ofMat_shape, hdd] at hu
      rw [if_pos ⟨h1, h2, by omega⟩, if_neg hv, Option.some.injEq] at hu
      subst hu
      have hval := e6 h' (exec_ssa e2 he)
      have hsh : ((ofMat h'.val (get a)).dot sum1 (ofMat h'.val (get b)) da db).shape = shape := hshape
      simp only
      refine ⟨by rw [hm1, hsh], ?_⟩
      rw [hm3]
      refine range'_map_val (by rw [hsh]) fun k hk => ?_
      rw [hval k (List.mem_range.2 hk), hsh]
      simp only [STensor.dot, ofMat_shape, h3]
      congr 1
      apply List.map_congr_left
      intro j hj
      have hj' := List.mem_range.1 hj
      rw [k5 k j hk hj' h'.val, k6 k j hk hj' h'.val, hlA]

end Godeep
