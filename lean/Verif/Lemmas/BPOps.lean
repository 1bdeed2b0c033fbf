import Verif.Lemmas.BPDense
import Verif.Lemmas.Chain
/-
  The operations that `BuildBackpropagation` of a dense layer records, as a whole.
-/
set_option linter.unusedSectionVars false

namespace Godeep
open Spec GoNum

variable {T : Type} [GoNum T]

/-- what the operations of a dense layer's back-propagation compute, given its error `dM`, weights,
bias, input, and the pre-activation `pnM` and error `pM` of the previous layer -/
structure BPNew (n inputs : Nat) (dM wM bM inM pnM pM : Mat) (f' : T → T) (alpha momentum : Ptr) (lo hi : Nat)
    (new : List (Op T)) (nwM nbM : Mat) : Prop where
  blk : Blk lo hi (· ∈ pM.ops) (fun q => q ∈ dM.ops ∨ q ∈ wM.ops ∨ q ∈ bM.ops ∨ q ∈ inM.ops ∨ q ∈ pnM.ops ∨ q ∈ pM.ops ∨
    q = alpha ∨ q = momentum) new
  fine : ∀ o ∈ new, Fine o
  nw : ∀ q ∈ nwM.ops, lo ≤ q ∧ q < hi ∧ q ∉ nbM.ops
  nb : ∀ q ∈ nbM.ops, lo ≤ q ∧ q < hi
  sat : ∀ h h', Sat1 new h h' → (∀ q, lo ≤ q → q < hi → q ∉ dsts new → h'.val q = zero) →
    (∀ i, i < inputs → h'.val (pM.ops.getD i 0) = GoNum.add (h.val (pM.ops.getD i 0)) (GoNum.mul
      (sum1 ((List.range n).map fun j => GoNum.mul (h'.val (cell dM [j])) (h'.val (cell wM [j, i]))))
      (f' (h'.val (pnM.ops.getD i 0))))) ∧
    (∀ i, i < n → h'.val (cell nbM [i]) = sum1 [h'.val (cell bM [i]), GoNum.mul zero (h'.val momentum),
      GoNum.mul (h'.val (cell dM [i])) (h'.val alpha)]) ∧
    (∀ i j, i < n → j < inputs → h'.val (cell nwM [i, j]) = sum1 [h'.val (cell wM [i, j]),
      GoNum.mul zero (h'.val momentum),
      GoNum.mul (GoNum.mul (h'.val (cell dM [i])) (h'.val alpha)) (h'.val (inM.ops.getD j 0))])

/-- the operations of a dense layer's back-propagation: derivative of the previous layer, its error,
new weights and bias -/
def bpOps (n inputs : Nat) (dM wM bM nwM mwM nbM mbM inM derM pM pnM : Mat) (f' : T → T) (alpha momentum : Ptr) (a : Nat) : List (Op T) :=
  asgs a ((List.range inputs).map fun i => .func f' (pnM.ops.getD i 0)) ++
  (((List.range inputs).flatMap fun i => preOps dM wM derM pM n (a + inputs + i * (n + 2)) i) ++
   (List.range n).flatMap fun i => updOps dM wM bM nwM mwM nbM mbM inM alpha momentum inputs
     (a + inputs + inputs * (n + 2) + i * (2 + inputs * 2)) i)

section
variable {h0 : Heap T} {inputs n : Nat} {dM wM bM nwM mwM nbM mbM inM derM pM pnM : Mat}

theorem bpOps_blk (D : BPMats h0 inputs n dM wM bM nwM mwM nbM mbM inM derM pM) {f' : T → T} {alpha momentum : Ptr} {lo a : Nat}
    (ha : alpha < lo) (hm : momentum < lo) (hlo : lo ≤ a) (hn0 : h0.next = a + inputs)
    (hap : alpha ∉ pM.ops) (hmp : momentum ∉ pM.ops)
    (gpn : GoodMat h0 pnM) (spn : size pnM.shape = inputs)
    (od : ∀ q ∈ dM.ops, q < lo) (ow : ∀ q ∈ wM.ops, q < lo) (ob : ∀ q ∈ bM.ops, q < lo) (oin : ∀ q ∈ inM.ops, q < lo)
    (opn : ∀ q ∈ pnM.ops, q < lo) (op : ∀ q ∈ pM.ops, q < lo)
    (newW : ∀ q ∈ nwM.ops, lo ≤ q ∧ q < a) (newMW : ∀ q ∈ mwM.ops, lo ≤ q ∧ q < a)
    (newB : ∀ q ∈ nbM.ops, lo ≤ q ∧ q < a) (newMB : ∀ q ∈ mbM.ops, lo ≤ q ∧ q < a)
    (newD : ∀ q ∈ derM.ops, a ≤ q ∧ q < a + inputs)
    (sep : ∀ q ∈ pM.ops, q ∉ bM.ops ∧ q ∉ inM.ops ∧ q ∉ pnM.ops) :
    Blk a (a + inputs + inputs * (n + 2) + n * (2 + inputs * 2)) (fun q => q ∈ pM.ops ∨ q ∈ nwM.ops ∨ q ∈ nbM.ops)
      (fun q => q ∈ dM.ops ∨ q ∈ wM.ops ∨ q ∈ bM.ops ∨ q ∈ inM.ops ∨ q ∈ pnM.ops ∨ q ∈ pM.ops ∨
        q ∈ mwM.ops ∨ q ∈ mbM.ops ∨ q = alpha ∨ q = momentum)
      (bpOps n inputs dM wM bM nwM mwM nbM mbM inM derM pM pnM f' alpha momentum a) := by
  obtain ⟨p1, hp1⟩ : ∃ p1, p1 = a + inputs := ⟨_, rfl⟩
  obtain ⟨p2, hp2⟩ : ∃ p2, p2 = p1 + inputs * (n + 2) := ⟨_, rfl⟩
  obtain ⟨p3, hp3⟩ : ∃ p3, p3 = p2 + n * (2 + inputs * 2) := ⟨_, rfl⟩
  unfold bpOps
  rw [← hp1, ← hp2, ← hp3]
  obtain ⟨pres, hpres⟩ : ∃ l : List (Op T), l = (List.range inputs).flatMap fun i => preOps dM wM derM pM n (p1 + i * (n + 2)) i := ⟨_, rfl⟩
  obtain ⟨upds, hupds⟩ : ∃ l : List (Op T), l = (List.range n).flatMap fun i =>
    updOps dM wM bM nwM mwM nbM mbM inM alpha momentum inputs (p2 + i * (2 + inputs * 2)) i := ⟨_, rfl⟩
  obtain ⟨ders, hders⟩ : ∃ l : List (Op T), l = asgs a ((List.range inputs).map fun i => .func f' (pnM.ops.getD i 0)) := ⟨_, rfl⟩
  rw [← hpres, ← hupds, ← hders]
  have hle : ∀ i, p1 ≤ p1 + i * (n + 2) := fun i => Nat.le_add_right _ _
  have hle2 : ∀ i, p2 ≤ p2 + i * (2 + inputs * 2) := fun i => Nat.le_add_right _ _
  have p12 : p1 ≤ p2 := by omega
  have hnp : h0.next = p1 := by omega
  have apn : alpha ∉ nwM.ops ∧ alpha ∉ nbM.ops := ⟨fun h => by have := newW _ h; omega, fun h => by have := newB _ h; omega⟩
  have mpn : momentum ∉ nwM.ops ∧ momentum ∉ nbM.ops := ⟨fun h => by have := newW _ h; omega, fun h => by have := newB _ h; omega⟩
  have Bder : Blk a p1 (fun _ => False) (· ∈ pnM.ops) ders := by
    have := Blk.asgs (T := T) (lo := a) (X := fun _ => False) (R := (· ∈ pnM.ops))
      (rs := (List.range inputs).map fun i => .func f' (pnM.ops.getD i 0)) ?_ ?_
    · rw [List.length_map, List.length_range, ← hp1, ← hders] at this
      exact this
    · intro r hr q hq
      obtain ⟨i, hi, rfl⟩ := List.mem_map.1 hr
      simp only [Rhs.reads, List.mem_singleton] at hq
      subst hq
      exact getD_mem gpn (by rw [spn]; exact List.mem_range.1 hi)
    · intro q hq
      have := opn q hq; omega
  have Bpre : Blk p1 p2 (· ∈ pM.ops) (fun q => q ∈ dM.ops ∨ q ∈ wM.ops ∨ q ∈ derM.ops ∨ q ∈ pM.ops) pres := by
    rw [hpres]
    refine (Blk.loop (fun i hi => (preOps_blk D (p := p1 + i * (n + 2)) (by have := hle i; omega) hi).mono (le_refl _) (by omega) (fun q h => Or.inr h) (fun q h => Or.inr h)) ?_ ?_ ?_).mono
      (le_refl _) (le_of_eq hp2.symm) ?_ ?_
    · rintro i hi q rfl
      exact hnp ▸ D.gp.lt (getD_mem D.gp (by rw [D.sp]; exact hi))
    · rintro i hi q (h | h | h | h)
      · exact hnp ▸ D.gd.lt h
      · exact hnp ▸ D.gw.lt h
      · exact hnp ▸ D.gder.lt h
      · rw [h]; exact hnp ▸ D.gp.lt (getD_mem D.gp (by rw [D.sp]; exact hi))
    · rintro i j hij hj q rfl
      have mj := getD_mem D.gp (i := j) (by rw [D.sp]; exact hj)
      have hne : pM.ops.getD j 0 ≠ pM.ops.getD i 0 := fun h => by
        have := getD_inj D.gp D.ndp (by rw [D.sp]; exact hj) (by rw [D.sp]; omega) h
        omega
      refine ⟨hne, ?_⟩
      rintro (h | h | h | h)
      · exact (D.pd _ mj).1 h
      · exact (D.pd _ mj).2.1 h
      · exact (D.pd _ mj).2.2.1 h
      · exact hne h
    · rintro q ⟨i, hi, rfl⟩
      exact Or.inr (getD_mem D.gp (by rw [D.sp]; exact hi))
    · rintro q ⟨i, hi, h | h | h | h⟩
      · tauto
      · tauto
      · tauto
      · right; right; right; right; rw [h]; exact getD_mem D.gp (by rw [D.sp]; exact hi)
  have Bupd : Blk p2 p3 (fun q => q ∈ nwM.ops ∨ q ∈ nbM.ops)
      (fun q => q ∈ dM.ops ∨ q ∈ wM.ops ∨ q ∈ bM.ops ∨ q ∈ mwM.ops ∨ q ∈ mbM.ops ∨ q ∈ inM.ops ∨ q = alpha ∨ q = momentum) upds := by
    rw [hupds]
    refine (Blk.loop (fun i hi => (updOps_blk D (p := p2 + i * (2 + inputs * 2)) (by have := hle2 i; omega) hi (by have := hle2 i; omega) (by have := hle2 i; omega) apn mpn).mono (le_refl _) (by omega) (fun q h => Or.inr h) (fun q h => Or.inr h)) ?_ ?_ ?_).mono
      (le_refl _) (le_of_eq hp3.symm) ?_ ?_
    · rintro i hi q (rfl | ⟨j, hj, rfl⟩)
      · have := newB _ (cell_mem D.gnb (inRange1 D.snb hi)); omega
      · have := newW _ (cell_mem D.gnw (inRange2 D.snw hi hj)); omega
    · rintro i hi q (h | h | h | h | h | h | h | h)
      · have := od q h; omega
      · have := ow q h; omega
      · have := ob q h; omega
      · have := newMW q h; omega
      · have := newMB q h; omega
      · have := oin q h; omega
      · omega
      · omega
    · intro i j hij hj q h
      have hi : i < n := by omega
      rcases h with rfl | ⟨k, hk, rfl⟩
      · have mj := cell_mem D.gnb (inRange1 D.snb hj)
        have zz := D.nbd _ mj
        have lq := newB _ mj
        refine ⟨?_, ?_⟩
        · rintro (h | ⟨k, hk, h⟩)
          · have := cell_inj D.gnb D.ndnb (inRange1 D.snb hj) (inRange1 D.snb hi) h
            simp at this; omega
          · exact (D.nwd _ (cell_mem D.gnw (inRange2 D.snw hi hk))).2.2.2.2.2.2.2 (h ▸ mj)
        · rintro (h | h | h | h | h | h | h | h)
          · exact zz.1 h
          · exact zz.2.1 h
          · exact zz.2.2.1 h
          · exact zz.2.2.2.1 h
          · exact zz.2.2.2.2.1 h
          · exact zz.2.2.2.2.2.1 h
          · omega
          · omega
      · have mj := cell_mem D.gnw (inRange2 D.snw hj hk)
        have zz := D.nwd _ mj
        have lq := newW _ mj
        refine ⟨?_, ?_⟩
        · rintro (h | ⟨k', hk', h⟩)
          · exact zz.2.2.2.2.2.2.2 (h ▸ cell_mem D.gnb (inRange1 D.snb hi))
          · have := cell_inj D.gnw D.ndnw (inRange2 D.snw hj hk) (inRange2 D.snw hi hk') h
            simp at this; omega
        · rintro (h | h | h | h | h | h | h | h)
          · exact zz.1 h
          · exact zz.2.1 h
          · exact zz.2.2.1 h
          · exact zz.2.2.2.1 h
          · exact zz.2.2.2.2.1 h
          · exact zz.2.2.2.2.2.1 h
          · omega
          · omega
    · rintro q ⟨i, hi, rfl | ⟨j, hj, rfl⟩⟩
      · exact Or.inr (Or.inr (cell_mem D.gnb (inRange1 D.snb hi)))
      · exact Or.inr (Or.inl (cell_mem D.gnw (inRange2 D.snw hi hj)))
    · rintro q ⟨i, hi, h⟩; exact Or.inr h
  have lold : ∀ q, q ∈ pM.ops ∨ q ∈ nwM.ops ∨ q ∈ nbM.ops → q < a := by
    rintro q (h | h | h)
    · have := op q h; omega
    · exact (newW q h).2
    · exact (newB q h).2
  have Bpu : Blk p1 p3 (fun q => q ∈ pM.ops ∨ q ∈ nwM.ops ∨ q ∈ nbM.ops)
      (fun q => q ∈ dM.ops ∨ q ∈ wM.ops ∨ q ∈ bM.ops ∨ q ∈ inM.ops ∨ q ∈ derM.ops ∨ q ∈ pM.ops ∨
        q ∈ mwM.ops ∨ q ∈ mbM.ops ∨ q = alpha ∨ q = momentum) (pres ++ upds) := by
    refine Blk.append Bpre Bupd (by omega) (by omega) (fun q h => ?_) (fun q h => ?_) (fun q h => ?_) (fun q h => ?_)
      (fun q h => ?_) (fun q h => ?_) (fun q h => ?_)
    · have := op q h; omega
    · have := lold q (Or.inr h); omega
    · rcases h with h | h | h | h
      · have := od q h; omega
      · have := ow q h; omega
      · have := newD q h; omega
      · have := op q h; omega
    · have hq : lo ≤ q ∧ q < a := h.elim (newW q) (newB q)
      refine ⟨fun h' => ?_, ?_⟩
      · have := op q h'; omega
      · rintro (h' | h' | h' | h')
        · have := od q h'; omega
        · have := ow q h'; omega
        · have := newD q h'; omega
        · have := op q h'; omega
    · tauto
    · tauto
    · right; tauto
  refine Blk.append Bder Bpu (by omega) (by omega) (fun q h => h.elim) lold (fun q h => ?_) (fun q h => ⟨fun h => h, fun h' => ?_⟩)
      (fun q h => ?_) (fun q h => ?_) (fun q h => ?_)
  · have := opn q h; omega
  · rcases h with h | h | h
    · exact (sep q h).2.2 h'
    · have := newW q h; have := opn q h'; omega
    · have := newB q h; have := opn q h'; omega
  · tauto
  · tauto
  · rcases h with h | h | h | h | h | h
    · tauto
    · tauto
    · tauto
    · tauto
    · left; have := newD q h; omega
    · right; tauto

/-- empty operations change nothing -/
theorem Blk.ins {lo hi : Nat} {X R : Ptr → Prop} {a b c : List (Op T)} (h : Blk lo hi X R (a ++ b)) (hc : AllNop c) :
    Blk lo hi X R (a ++ (c ++ b)) := by
  obtain ⟨h1, h2, h3⟩ := h
  refine ⟨?_, ?_, ?_⟩
  · obtain ⟨ha, hb, hab⟩ := List.pairwise_append.1 h1
    refine List.pairwise_append.2 ⟨ha, List.pairwise_append.2 ⟨hc.ssa1, hb, ?_⟩, ?_⟩
    · intro o ho o' ho' q hq
      obtain ⟨p, rfl⟩ := hc o ho
      exact ⟨fun h => (by cases h), fun h => (by cases h)⟩
    · intro o ho o' ho'
      rcases List.mem_append.1 ho' with ho' | ho'
      · obtain ⟨p, rfl⟩ := hc o' ho'
        intro q hq; cases hq
      · exact hab o ho o' ho'
  · simpa [dsts_append, hc.dsts] using h2
  · intro o ho q hq
    rcases List.mem_append.1 ho with ho | ho
    · exact h3 o (List.mem_append_left _ ho) q hq
    · rcases List.mem_append.1 ho with ho | ho
      · rw [hc.reads o ho] at hq; cases hq
      · exact h3 o (List.mem_append_right _ ho) q hq

/-- the whole operation list of a layer, with the empty operations of the builders in between -/
theorem bpOps_new (D : BPMats h0 inputs n dM wM bM nwM mwM nbM mbM inM derM pM) {f' : T → T} {alpha momentum : Ptr} {lo a : Nat}
    (hpos : 0 < lo) (hn : 0 < n) (ha0 : 0 < alpha) (hm0 : 0 < momentum)
    (ha : alpha < lo) (hm : momentum < lo) (hlo : lo ≤ a) (hn0 : h0.next = a + inputs)
    (hap : alpha ∉ pM.ops) (hmp : momentum ∉ pM.ops)
    (gpn : GoodMat h0 pnM) (spn : size pnM.shape = inputs)
    (od : ∀ q ∈ dM.ops, q < lo) (ow : ∀ q ∈ wM.ops, q < lo) (ob : ∀ q ∈ bM.ops, q < lo) (oin : ∀ q ∈ inM.ops, q < lo)
    (opn : ∀ q ∈ pnM.ops, q < lo) (op : ∀ q ∈ pM.ops, q < lo)
    (newW : ∀ q ∈ nwM.ops, lo ≤ q ∧ q < a) (newMW : ∀ q ∈ mwM.ops, lo ≤ q ∧ q < a)
    (newB : ∀ q ∈ nbM.ops, lo ≤ q ∧ q < a) (newMB : ∀ q ∈ mbM.ops, lo ≤ q ∧ q < a)
    (mwn : ∀ q ∈ mwM.ops, q ∉ nwM.ops ∧ q ∉ nbM.ops) (mbn : ∀ q ∈ mbM.ops, q ∉ nwM.ops ∧ q ∉ nbM.ops)
    (newD : derM.ops = List.range' a inputs)
    (sep : ∀ q ∈ pM.ops, q ∉ bM.ops ∧ q ∉ inM.ops ∧ q ∉ pnM.ops)
    {nA nB nC : List (Op T)} (hA : AllNop nA) (hB : AllNop nB) (hC : AllNop nC) {p1 p2 p3 : Nat}
    (hp1 : p1 = a + inputs) (hp2 : p2 = p1 + inputs * (n + 2)) (hp3 : p3 = p2 + n * (2 + inputs * 2)) :
    BPNew n inputs dM wM bM inM pnM pM f' alpha momentum lo p3
      ((((nA ++ (nB ++ asgs a ((List.range inputs).map fun i => .func f' (pnM.ops.getD i 0)))) ++ nC) ++
        (List.range inputs).flatMap fun i => preOps dM wM derM pM n (p1 + i * (n + 2)) i) ++
        (List.range n).flatMap fun i => updOps dM wM bM nwM mwM nbM mbM inM alpha momentum inputs (p2 + i * (2 + inputs * 2)) i)
      nwM nbM := by
  have newD' : ∀ q ∈ derM.ops, a ≤ q ∧ q < a + inputs := by
    intro q hq; rwa [newD, List.mem_range'_1] at hq
  subst hp1 hp2 hp3
  have B := bpOps_blk D (f' := f') ha hm hlo hn0 hap hmp gpn spn od ow ob oin opn op newW newMW newB newMB newD' sep
  unfold bpOps at B
  obtain ⟨pres, hpres⟩ : ∃ l : List (Op T), l = (List.range inputs).flatMap fun i => preOps dM wM derM pM n (a + inputs + i * (n + 2)) i := ⟨_, rfl⟩
  obtain ⟨upds, hupds⟩ : ∃ l : List (Op T), l = (List.range n).flatMap fun i =>
    updOps dM wM bM nwM mwM nbM mbM inM alpha momentum inputs (a + inputs + inputs * (n + 2) + i * (2 + inputs * 2)) i := ⟨_, rfl⟩
  obtain ⟨ders, hders⟩ : ∃ l : List (Op T), l = asgs a ((List.range inputs).map fun i => .func f' (pnM.ops.getD i 0)) := ⟨_, rfl⟩
  rw [← hpres, ← hupds, ← hders] at B
  rw [← hpres, ← hupds, ← hders]
  have e : (((nA ++ (nB ++ ders)) ++ nC) ++ pres) ++ upds = nA ++ (nB ++ (ders ++ (nC ++ (pres ++ upds)))) := by
    simp only [List.append_assoc]
  have B' := Blk.ins (a := []) (Blk.ins (a := []) (B.ins hC) hB) hA
  simp only [List.nil_append] at B'
  rw [e]
  have hle : ∀ i, a + inputs ≤ a + inputs + i * (n + 2) := fun i => Nat.le_add_right _ _
  have hle2 : ∀ i, a + inputs + inputs * (n + 2) ≤ a + inputs + inputs * (n + 2) + i * (2 + inputs * 2) := fun i => Nat.le_add_right _ _
  have hd0 : dsts (nA ++ (nB ++ (ders ++ (nC ++ (pres ++ upds))))) = dsts (ders ++ (pres ++ upds)) := by
    simp [dsts_append, hA.dsts, hB.dsts, hC.dsts]
  refine ⟨B'.mono hlo (le_refl _) ?_ ?_, ?_, ?_, ?_, ?_⟩
  · rintro q (h | h | h)
    · exact Or.inr h
    · left; have := newW q h; omega
    · left; have := newB q h; omega
  · rintro q (h | h | h | h | h | h | h | h | h | h)
    · tauto
    · tauto
    · tauto
    · tauto
    · tauto
    · tauto
    · left; have := newMW q h; omega
    · left; have := newMB q h; omega
    · tauto
    · tauto
  · intro o ho
    simp only [List.mem_append] at ho
    rcases ho with ho | ho | ho | ho | ho | ho
    · exact hA.fine o ho
    · exact hB.fine o ho
    · rw [hders] at ho
      obtain ⟨i, r, h1, rfl⟩ := of_mem_asgs ho
      rw [List.getElem?_map] at h1
      simp only [Option.map_eq_some_iff] at h1
      obtain ⟨i', hi, rfl⟩ := h1
      have hi' := List.mem_range.1 (List.mem_of_getElem? hi)
      refine ⟨by omega, ?_, trivial, trivial⟩
      simp only [Rhs.reads, List.mem_singleton, forall_eq]
      exact (gpn.valid _ (getD_mem gpn (by rw [spn]; exact hi'))).1
    · exact hC.fine o ho
    · rw [hpres] at ho
      obtain ⟨i, hi, ho⟩ := List.mem_flatMap.1 ho
      exact preOps_fine D (by have := hle i; omega) (by have := hle i; omega) (List.mem_range.1 hi) hn o ho
    · rw [hupds] at ho
      obtain ⟨i, hi, ho⟩ := List.mem_flatMap.1 ho
      exact updOps_fine D (by have := hle2 i; omega) (List.mem_range.1 hi) ha0 hm0 o ho
  · intro q hq
    have := newW q hq
    exact ⟨this.1, by omega, (D.nwd q hq).2.2.2.2.2.2.2⟩
  · intro q hq
    have := newB q hq
    exact ⟨this.1, by omega⟩
  · intro h h' hs hz
    have hnd : ∀ q, lo ≤ q → q < a → q ∉ nwM.ops → q ∉ nbM.ops → h'.val q = zero := by
      intro q h1 h2 h3 h4
      refine hz q h1 (by omega) ?_
      rw [hd0]
      intro hm
      rcases B.dst q hm with h | h | h | h
      · omega
      · have := op q h; omega
      · exact h3 h
      · exact h4 h
    have hsd : Sat1 ders h h' := hs.sub fun o ho => by simp [ho]
    have hsp : Sat1 pres h h' := hs.sub fun o ho => by simp [ho]
    have hsu : Sat1 upds h h' := hs.sub fun o ho => by simp [ho]
    refine ⟨fun i hi => ?_, fun i hi => ?_, fun i j hi hj => ?_⟩
    · have hx : Sat1 (preOps dM wM derM pM n (a + inputs + i * (n + 2)) i) h h' := hsp.sub fun o ho => by
        rw [hpres]; exact List.mem_flatMap.2 ⟨i, List.mem_range.2 hi, ho⟩
      rw [preOps_sat D (by have := hle i; omega) hi hx]
      have he : derM.ops.getD i 0 = a + i := by
        rw [newD, List.getD_eq_getElem _ _ (by simpa using hi)]; simp
      have hlt := opn _ (getD_mem gpn (i := i) (by rw [spn]; exact hi))
      rw [he, hsd.func (p := a + i) (a := pnM.ops.getD i 0) (f := f') ?_ (by omega)]
      rw [hders]
      refine mem_asgs ?_
      rw [List.getElem?_map, List.getElem?_range hi]; rfl
    · have hx : Sat1 (updOps dM wM bM nwM mwM nbM mbM inM alpha momentum inputs (a + inputs + inputs * (n + 2) + i * (2 + inputs * 2)) i) h h' :=
        hsu.sub fun o ho => by rw [hupds]; exact List.mem_flatMap.2 ⟨i, List.mem_range.2 hi, ho⟩
      have := hle2 i
      rw [(updOps_sat D (by omega) hi (by omega) (by omega) hx).1]
      have mm := cell_mem D.gmb (inRange1 D.smb hi)
      rw [hnd _ (newMB _ mm).1 (newMB _ mm).2 (mbn _ mm).1 (mbn _ mm).2]
    · have hx : Sat1 (updOps dM wM bM nwM mwM nbM mbM inM alpha momentum inputs (a + inputs + inputs * (n + 2) + i * (2 + inputs * 2)) i) h h' :=
        hsu.sub fun o ho => by rw [hupds]; exact List.mem_flatMap.2 ⟨i, List.mem_range.2 hi, ho⟩
      have := hle2 i
      rw [(updOps_sat D (by omega) hi (by omega) (by omega) hx).2 j hj]
      have mm := cell_mem D.gmw (inRange2 D.smw hi hj)
      rw [hnd _ (newMW _ mm).1 (newMW _ mm).2 (mwn _ mm).1 (mwn _ mm).2]

end

end Godeep
