import Verif.Lemmas.Emit
/-
  The feed-forward operations of a dense layer.
-/
set_option linter.unusedSectionVars false

namespace Godeep
open Spec GoNum

variable {T : Type} [GoNum T]

theorem put_val (h : Heap T) (p q : Ptr) (v : T) : (h.put p v).val q = if q = p then v else h.val q := rfl

/-- new scalars for the products of older ones -/
theorem exec_products {p : Nat} {a b : Nat → Ptr} : ∀ {n : Nat} {h h' : Heap T}, (∀ j, j < n → a j < p ∧ b j < p) →
    exec ((List.range n).map fun j => Op.asg (p + j) (.mul (a j) (b j))) h = .ok () h' →
    (∀ j, j < n → h'.val (p + j) = GoNum.mul (h.val (a j)) (h.val (b j))) ∧
    (∀ q, (q < p ∨ p + n ≤ q) → h'.val q = h.val q) := by
  intro n
  induction n with
  | zero =>
    intro h h' _ he
    simp only [List.range_zero, List.map_nil, exec, Out.ok.injEq, true_and] at he
    subst he
    exact ⟨fun j hj => by omega, fun q _ => rfl⟩
  | succ n ih =>
    intro h h' hab he
    rw [List.range_succ, List.map_append, exec_append_ok] at he
    obtain ⟨h1, e1, e2⟩ := he
    obtain ⟨i1, i2⟩ := ih (fun j hj => hab j (by omega)) e1
    obtain ⟨v, hv, rfl⟩ := exec_asg1 e2
    have hv' : v = GoNum.mul (h1.val (a n)) (h1.val (b n)) := arith_eval (o := .mul) hv
    obtain ⟨ha, hb⟩ := hab n (by omega)
    rw [i2 _ (Or.inl ha), i2 _ (Or.inl hb)] at hv'
    refine ⟨fun j hj => ?_, fun q hq => ?_⟩
    · rw [put_val]
      by_cases hjn : j = n
      · subst hjn; rw [if_pos rfl, hv']
      · rw [if_neg (by omega), i1 j (by omega)]
    · rw [put_val, if_neg (by omega), i2 q (by omega)]

/-- the operations of neuron `i` -/
def neuronOps (act : T → T) (inM wM bM netaM outM : Mat) (inputs p i : Nat) : List (Op T) :=
  ((List.range inputs).map fun j => Op.asg (p + j) (.mul (inM.ops.getD j 0) (cell wM [i, j]))) ++
  [.asg (cell netaM [i]) (.sum (List.range' p inputs ++ [cell bM [i]])),
   .asg (cell outM [i]) (.func act (cell netaM [i]))]

/-- the operations of a dense layer with `n` neurons -/
def denseOps (act : T → T) (inM wM bM netaM outM : Mat) (inputs n p : Nat) : List (Op T) :=
  (List.range n).flatMap fun i => neuronOps act inM wM bM netaM outM inputs (p + i * inputs) i

/-- the shapes and scalars of a dense layer's tensors -/
structure DenseMats (h : Heap T) (inputs n : Nat) (inM wM bM netaM outM : Mat) : Prop where
  gin : GoodMat h inM
  gw : GoodMat h wM
  gb : GoodMat h bM
  gn : GoodMat h netaM
  go : GoodMat h outM
  sin : size inM.shape = inputs
  sw : wM.shape = [n, inputs]
  sb : bM.shape = [n]
  sn : netaM.shape = [n]
  so : outM.shape = [n]
  ndn : netaM.ops.Nodup
  ndo : outM.ops.Nodup
  nin : ∀ q ∈ netaM.ops, q ∉ inM.ops ∧ q ∉ wM.ops ∧ q ∉ bM.ops ∧ q ∉ outM.ops
  out : ∀ q ∈ outM.ops, q ∉ inM.ops ∧ q ∉ wM.ops ∧ q ∉ bM.ops

theorem DenseMats.mono {h h' : Heap T} {inputs n : Nat} {inM wM bM netaM outM : Mat}
    (D : DenseMats h inputs n inM wM bM netaM outM) (hn : h.next ≤ h'.next) :
    DenseMats h' inputs n inM wM bM netaM outM :=
  { D with gin := D.gin.mono hn, gw := D.gw.mono hn, gb := D.gb.mono hn, gn := D.gn.mono hn, go := D.go.mono hn }

section
variable {h0 : Heap T} {inputs n : Nat} {inM wM bM netaM outM : Mat} (D : DenseMats h0 inputs n inM wM bM netaM outM)
include D

theorem DenseMats.inRange2 {i j : Nat} (hi : i < n) (hj : j < inputs) : InRange wM.shape [i, j] := by
  rw [D.sw]; simp [hi, hj]

theorem DenseMats.inRange1 {m : Mat} (hs : m.shape = [n]) {i : Nat} (hi : i < n) : InRange m.shape [i] := by
  rw [hs]; simp [hi]

theorem DenseMats.inMem {j : Nat} (hj : j < inputs) : inM.ops.getD j 0 ∈ inM.ops := by
  have hk : j < inM.ops.length := by rw [D.gin.len, D.sin]; exact hj
  rw [List.getD_eq_getElem _ _ hk]; exact List.getElem_mem hk

/-- the weighted sum of neuron `i` -/
def preact (inM wM bM : Mat) (inputs : Nat) (val : Ptr → T) (i : Nat) : T :=
  sum1 (((List.range inputs).map fun j => GoNum.mul (val (inM.ops.getD j 0)) (val (cell wM [i, j]))) ++ [val (cell bM [i])])

omit D in
theorem preact_congr {inM wM bM : Mat} {inputs : Nat} {val val' : Ptr → T} {i : Nat}
    (h1 : ∀ j, j < inputs → val' (inM.ops.getD j 0) = val (inM.ops.getD j 0) ∧ val' (cell wM [i, j]) = val (cell wM [i, j]))
    (h2 : val' (cell bM [i]) = val (cell bM [i])) : preact inM wM bM inputs val' i = preact inM wM bM inputs val i := by
  unfold preact
  rw [h2]
  congr 2
  apply List.map_congr_left
  intro j hj
  obtain ⟨e1, e2⟩ := h1 j (List.mem_range.1 hj)
  rw [e1, e2]

theorem neuron_run {act : T → T} {p i : Nat} (hp : h0.next ≤ p) (hi : i < n) {h h' : Heap T}
    (he : exec (neuronOps act inM wM bM netaM outM inputs p i) h = .ok () h') :
    h'.val (cell netaM [i]) = preact inM wM bM inputs h.val i ∧
    h'.val (cell outM [i]) = act (preact inM wM bM inputs h.val i) ∧
    ∀ q, q < p → q ≠ cell netaM [i] → q ≠ cell outM [i] → h'.val q = h.val q := by
  have hin : ∀ j, j < inputs → inM.ops.getD j 0 < p := fun j hj =>
    lt_of_lt_of_le (D.gin.valid _ (D.inMem hj)).2 hp
  have hw : ∀ j, j < inputs → cell wM [i, j] < p := fun j hj =>
    lt_of_lt_of_le (D.gw.valid _ (cell_mem D.gw (D.inRange2 hi hj))).2 hp
  have mn := cell_mem D.gn (D.inRange1 D.sn hi)
  have mo := cell_mem D.go (D.inRange1 D.so hi)
  have mb := cell_mem D.gb (D.inRange1 D.sb hi)
  have hn := lt_of_lt_of_le (D.gn.valid _ mn).2 hp
  have ho := lt_of_lt_of_le (D.go.valid _ mo).2 hp
  have hb := lt_of_lt_of_le (D.gb.valid _ mb).2 hp
  have hno : cell outM [i] ≠ cell netaM [i] := fun h => (D.nin _ mn).2.2.2 (h ▸ mo)
  unfold neuronOps at he
  rw [exec_append_ok] at he
  obtain ⟨h1, e1, e2⟩ := he
  obtain ⟨p1, p2⟩ := exec_products (fun j hj => ⟨hin j hj, hw j hj⟩) e1
  obtain ⟨_, v, hv, e3⟩ := exec_cons_asg_ok.1 e2
  obtain ⟨u, hu, rfl⟩ := exec_asg1 e3
  have hv' := sum_eval hv
  have hz : v = preact inM wM bM inputs h.val i := by
    rw [hv', List.map_append, List.map_cons, List.map_nil, p2 _ (Or.inl hb)]
    unfold preact
    congr 2
    rw [List.range'_eq_map_range, List.map_map]
    apply List.map_congr_left
    intro j hj
    exact p1 j (List.mem_range.1 hj)
  have hu' : u = act v := by
    simp only [Rhs.eval] at hu
    obtain ⟨x, hx, rfl⟩ := res_map_ok hu
    rw [(load_ok hx).2, put_val, if_pos rfl]
  refine ⟨?_, ?_, fun q hq h2 h3 => ?_⟩
  · rw [put_val, if_neg (fun h => hno h.symm), put_val, if_pos rfl, hz]
  · rw [put_val, if_pos rfl, hu', hz]
  · rw [put_val, if_neg h3, put_val, if_neg h2, p2 q (Or.inl hq)]

theorem dense_dsts {act : T → T} {p : Nat} {q : Ptr}
    (hq : q ∈ dsts (denseOps act inM wM bM netaM outM inputs n p)) :
    (p ≤ q ∧ q < p + n * inputs) ∨ q ∈ netaM.ops ∨ q ∈ outM.ops := by
  unfold denseOps at hq
  rw [dsts_flatMap] at hq
  obtain ⟨i, hi, hq⟩ := hq
  rw [List.mem_range] at hi
  unfold neuronOps at hq
  rw [dsts_append, List.mem_append] at hq
  rcases hq with hq | hq
  · rw [mem_dsts] at hq
    obtain ⟨r, hr⟩ := hq
    rw [List.mem_map] at hr
    obtain ⟨j, hj, he⟩ := hr
    rw [List.mem_range] at hj
    injection he with he
    have : (i + 1) * inputs ≤ n * inputs := Nat.mul_le_mul_right _ hi
    rw [Nat.succ_mul] at this
    left; omega
  · simp only [dsts_asg, dsts_nil, List.mem_cons, List.not_mem_nil, or_false] at hq
    rcases hq with rfl | rfl
    · exact Or.inr (Or.inl (cell_mem D.gn (D.inRange1 D.sn hi)))
    · exact Or.inr (Or.inr (cell_mem D.go (D.inRange1 D.so hi)))

theorem dense_fine {act : T → T} {p : Nat} (hp : h0.next ≤ p) (hpos : 0 < p) :
    ∀ o ∈ denseOps act inM wM bM netaM outM inputs n p, Fine o := by
  intro o ho
  unfold denseOps neuronOps at ho
  rw [List.mem_flatMap] at ho
  obtain ⟨i, hi, ho⟩ := ho
  rw [List.mem_range] at hi
  have pn := (D.gn.valid _ (cell_mem D.gn (D.inRange1 D.sn hi))).1
  have po := (D.go.valid _ (cell_mem D.go (D.inRange1 D.so hi))).1
  have pb := (D.gb.valid _ (cell_mem D.gb (D.inRange1 D.sb hi))).1
  rw [List.mem_append] at ho
  rcases ho with ho | ho
  · rw [List.mem_map] at ho
    obtain ⟨j, hj, rfl⟩ := ho
    rw [List.mem_range] at hj
    have pi := (D.gin.valid _ (D.inMem hj)).1
    have pw := (D.gw.valid _ (cell_mem D.gw (D.inRange2 hi hj))).1
    refine ⟨by omega, ?_, trivial, trivial⟩
    simp only [Rhs.reads, List.mem_cons, List.not_mem_nil, or_false, forall_eq_or_imp, forall_eq]
    exact ⟨pi, pw⟩
  · simp only [List.mem_cons, List.not_mem_nil, or_false] at ho
    rcases ho with rfl | rfl
    · refine ⟨pn, ?_, by simp [ArgsNonempty], trivial⟩
      intro q hq
      simp only [Rhs.reads, List.mem_append, List.mem_range'_1, List.mem_singleton] at hq
      rcases hq with hq | rfl
      · omega
      · exact pb
    · refine ⟨po, ?_, trivial, trivial⟩
      intro q hq
      simp only [Rhs.reads, List.mem_singleton] at hq
      subst hq; exact pn

theorem dense_run {act : T → T} {p : Nat} (hp : h0.next ≤ p) {h h' : Heap T}
    (he : exec (denseOps act inM wM bM netaM outM inputs n p) h = .ok () h') (i : Nat) (hi : i < n) :
    h'.val (cell netaM [i]) = preact inM wM bM inputs h.val i ∧
    h'.val (cell outM [i]) = act (preact inM wM bM inputs h.val i) := by
  have key := exec_loop (n := n) (h := h) (h' := h')
    (g := fun i => neuronOps act inM wM bM netaM outM inputs (p + i * inputs) i)
    (fun i g => (∀ k, k < i → g.val (cell netaM [k]) = preact inM wM bM inputs h.val k ∧
        g.val (cell outM [k]) = act (preact inM wM bM inputs h.val k)) ∧
      (∀ q, q < p → q ∉ netaM.ops → q ∉ outM.ops → g.val q = h.val q)) ⟨fun k hk => by omega, fun _ _ _ _ => rfl⟩ ?_ he
  · exact key.1 i hi
  · intro i hi h1 h2 ⟨I1, I2⟩ e
    obtain ⟨n1, n2, n3⟩ := neuron_run D (act := act) (p := p + i * inputs) (by omega) hi e
    have mn := cell_mem D.gn (D.inRange1 D.sn hi)
    have mo := cell_mem D.go (D.inRange1 D.so hi)
    have hpre : preact inM wM bM inputs h1.val i = preact inM wM bM inputs h.val i := by
      refine preact_congr (fun j hj => ⟨?_, ?_⟩) ?_
      · have hm := D.inMem hj
        exact I2 _ (lt_of_lt_of_le (D.gin.valid _ hm).2 hp) (fun h => (D.nin _ h).1 hm) (fun h => (D.out _ h).1 hm)
      · have hm := cell_mem D.gw (D.inRange2 hi hj)
        exact I2 _ (lt_of_lt_of_le (D.gw.valid _ hm).2 hp) (fun h => (D.nin _ h).2.1 hm) (fun h => (D.out _ h).2.1 hm)
      · have hm := cell_mem D.gb (D.inRange1 D.sb hi)
        exact I2 _ (lt_of_lt_of_le (D.gb.valid _ hm).2 hp) (fun h => (D.nin _ h).2.2.1 hm) (fun h => (D.out _ h).2.2 hm)
    rw [hpre] at n1 n2
    refine ⟨fun k hk => ?_, fun q hq h3 h4 => ?_⟩
    · by_cases hki : k = i
      · subst hki; exact ⟨n1, n2⟩
      · have hk' : k < i := by omega
        have hkn : k < n := by omega
        have ckn := cell_mem D.gn (D.inRange1 D.sn hkn)
        have cko := cell_mem D.go (D.inRange1 D.so hkn)
        have hne : [k] ≠ [i] := by simpa using hki
        obtain ⟨o1, o2⟩ := I1 k hk'
        constructor
        · rw [n3 _ (by have := (D.gn.valid _ ckn).2; omega)
            (fun h => hne (cell_inj D.gn D.ndn (D.inRange1 D.sn hkn) (D.inRange1 D.sn hi) h))
            (fun h => (D.nin _ ckn).2.2.2 (h ▸ mo)), o1]
        · rw [n3 _ (by have := (D.go.valid _ cko).2; omega)
            (fun h => (D.nin _ mn).2.2.2 (h ▸ cko))
            (fun h => hne (cell_inj D.go D.ndo (D.inRange1 D.so hkn) (D.inRange1 D.so hi) h)), o2]
    · rw [n3 q (by omega) (fun h => h3 (h ▸ mn)) (fun h => h4 (h ▸ mo)), I2 q hq h3 h4]

/-- neurons in the mathematical sense -/
theorem preact_eq {h : Heap T} {w b x : STensor T} (hx : Holds h inM x) (hw : Holds h wM w) (hb : Holds h bM b)
    {i : Nat} (hi : i < n) : preact inM wM bM inputs h.val i =
      sum1 (((List.range (size x.shape)).map fun j =>
        GoNum.mul (x.get (unflat x.shape j)) (w.get [i, j])) ++ [b.get [i]]) := by
  unfold preact
  rw [holds_cell hb (D.inRange1 D.sb hi), ← hx.shape, D.sin]
  congr 2
  apply List.map_congr_left
  intro j hj
  rw [List.mem_range] at hj
  have hj' : j < size inM.shape := by rw [D.sin]; exact hj
  rw [holds_cell hw (D.inRange2 hi hj), ← cell_unflat hj', holds_cell hx (unflat_inRange hj')]

theorem dense_holds {act : T → T} {p : Nat} (hp : h0.next ≤ p) {h h' : Heap T} (hn : p ≤ h.next)
    {w b x : STensor T} (hx : Holds h inM x) (hw : Holds h wM w) (hb : Holds h bM b)
    (he : exec (denseOps act inM wM bM netaM outM inputs n p) h = .ok () h') :
    Holds h' outM (denseFn act w b x) := by
  have hnext := (exec_frame he).1
  refine holds_of_cell (D.go.mono (by omega)) ?_ fun idx hi => ?_
  · rw [D.so]; show _ = b.shape; rw [← hb.shape, D.sb]
  · rw [D.so] at hi
    obtain ⟨i, r, rfl, h1, h2⟩ := inRange_cons_left hi
    rw [inRange_nil_left] at h2
    subst h2
    rw [(dense_run D hp he i h1).2, preact_eq D hx hw hb h1]
    rfl

theorem dense_neta {act : T → T} {p : Nat} (hp : h0.next ≤ p) {h h' : Heap T} (hn : p ≤ h.next)
    {w b x : STensor T} (hx : Holds h inM x) (hw : Holds h wM w) (hb : Holds h bM b)
    (he : exec (denseOps act inM wM bM netaM outM inputs n p) h = .ok () h') :
    Holds h' netaM (denseFn id w b x) := by
  have hnext := (exec_frame he).1
  refine holds_of_cell (D.gn.mono (by omega)) ?_ fun idx hi => ?_
  · rw [D.sn]; show _ = b.shape; rw [← hb.shape, D.sb]
  · rw [D.sn] at hi
    obtain ⟨i, r, rfl, h1, h2⟩ := inRange_cons_left hi
    rw [inRange_nil_left] at h2
    subst h2
    rw [(dense_run D hp he i h1).1, preact_eq D hx hw hb h1]
    rfl

end

/-! the code that pushes them -/

theorem denseNeuron_emits {N : Nat → Node T} {h0 : Heap T} {x : Layer T} {w b neta out inp inputs n i : Nat}
    {inM wM bM netaM outM : Mat} (D : DenseMats h0 inputs n inM wM bM netaM outM)
    (ew : (N w).mat = wM) (eb : (N b).mat = bM) (en : (N neta).mat = netaM) (eo : (N out).mat = outM)
    (ei : (N inp).mat = inM) (hi : i < n) :
    Emits N (LayerM.denseNeuron x w b neta out inp inputs i) (fun _ => ()) inputs
      (fun p => neuronOps x.act.activate inM wM bM netaM outM inputs p i) := by
  unfold LayerM.denseNeuron
  have hmul : Emits N (Run.collect (List.range inputs) fun j => do
      let mul ← Run.scalar zero
      let weight ← Run.operand w [i, j]
      let input ← Run.operandAt inp j
      Run.push (.asg mul (.mul input weight))
      return mul) (fun p => List.range' p inputs) inputs
      (fun p => (List.range inputs).map fun j => Op.asg (p + j) (.mul (inM.ops.getD j 0) (cell wM [i, j]))) := by
    refine (Emits.collect (k := 1) (r := fun _ p => p)
      (o := fun j p => [.asg p (.mul (inM.ops.getD j 0) (cell wM [i, j]))]) fun j hj => ?_).congr ?_ (by omega) ?_
    · refine (Emits.bind Emits.scalar fun p => Emits.bind (Emits.operand ew D.gw (D.inRange2 hi hj)) fun _ =>
        Emits.bind (Emits.operandAt ei D.gin (by rw [D.sin]; exact hj)) fun _ =>
        Emits.bind (Emits.push _) fun _ => Emits.pure p).congr (fun _ => rfl) rfl (fun _ => rfl)
    · intro p; rw [List.range'_eq_map_range]; simp
    · intro p; rw [List.map_eq_flatMap]; simp
  refine (Emits.bind (Emits.operand eb D.gb (D.inRange1 D.sb hi)) fun _ => Emits.bind hmul fun p =>
    Emits.bind (Emits.operand en D.gn (D.inRange1 D.sn hi)) fun _ => Emits.bind (Emits.push _) fun _ =>
    Emits.bind (Emits.operand eo D.go (D.inRange1 D.so hi)) fun _ => Emits.push _).congr
    (fun _ => rfl) (by omega) (fun p => ?_)
  simp [neuronOps]

theorem denseLoop_emits {N : Nat → Node T} {h0 : Heap T} {x : Layer T} {w b neta out inp inputs n : Nat}
    {inM wM bM netaM outM : Mat} (D : DenseMats h0 inputs n inM wM bM netaM outM)
    (ew : (N w).mat = wM) (eb : (N b).mat = bM) (en : (N neta).mat = netaM) (eo : (N out).mat = outM)
    (ei : (N inp).mat = inM) :
    Emits N (Run.each (List.range n) fun i => LayerM.denseNeuron x w b neta out inp inputs i) (fun _ => ())
      (n * inputs) (denseOps x.act.activate inM wM bM netaM outM inputs n) :=
  Emits.each fun _ hi => denseNeuron_emits D ew eb en eo ei hi

end Godeep
