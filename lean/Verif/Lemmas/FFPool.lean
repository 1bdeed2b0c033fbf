import Verif.Lemmas.FFView
/-
  Building the feed-forward part of `MaxPool2D` and `UpSampling2D` layers.
-/
set_option linter.unusedSectionVars false

namespace Godeep
open Spec GoNum

variable {T : Type} [GoNum T]

theorem loop3 {α : Type} (A B C : Nat) (g : Nat → Nat → Nat → List α) :
    ((List.range A).flatMap fun f => (List.range B).flatMap fun x => (List.range C).flatMap fun y => g f x y) =
      (allIdx [A, B, C]).flatMap fun i => g (i.getD 0 0) (i.getD 1 0) (i.getD 2 0) := by
  simp only [allIdx, List.flatMap_assoc, List.flatMap_map, List.map_flatMap, List.map_cons, List.map_nil, List.flatMap_cons,
    List.flatMap_nil, List.append_nil]
  rfl

/-- writes to distinct scalars of values that do not depend on them -/
theorem exec_writes {ι : Type} {D : Ptr → Prop} {p : ι → Ptr} {r : ι → Rhs T} {v : ι → T} : ∀ {l : List ι} {h h' : Heap T},
    (l.map p).Nodup → (∀ i ∈ l, D (p i)) →
    (∀ i ∈ l, ∀ h1 : Heap T, h1.next = h.next → (∀ q, ¬ D q → h1.val q = h.val q) → ∀ u, (r i).eval h1 = .ok u → u = v i) →
    exec (l.map fun i => Op.asg (p i) (r i)) h = .ok () h' → ∀ i ∈ l, h'.val (p i) = v i := by
  intro l
  induction l with
  | nil => intro h h' _ _ _ _ i hi; cases hi
  | cons a l ih =>
    intro h h' hnd hD hv he i hi
    rw [List.map_cons] at he hnd
    obtain ⟨_, u, hu, he⟩ := exec_cons_asg_ok.1 he
    have hnd' := List.nodup_cons.1 hnd
    have hagree : ∀ q, ¬ D q → (h.put (p a) u).val q = h.val q := fun q hq => by
      rw [put_val, if_neg]; rintro rfl; exact hq (hD a (by simp))
    rcases List.mem_cons.1 hi with rfl | hi
    · have hq : p i ∉ dsts (l.map fun i => Op.asg (p i) (r i)) := by
        rw [mem_dsts]
        rintro ⟨r', hr⟩
        obtain ⟨j, hj, e⟩ := List.mem_map.1 hr
        injection e with e1 _
        exact hnd'.1 (e1 ▸ List.mem_map_of_mem hj)
      rw [(exec_frame he).2 _ hq, put_val, if_pos rfl]
      exact hv i (by simp) h rfl (fun _ _ => rfl) u hu
    · exact ih (h := h.put (p a) u) hnd'.2 (fun j hj => hD j (by simp [hj])) (fun j hj h1 h0 h2 => hv j (by simp [hj]) h1 h0 fun q hq => by
        rw [h2 q hq, hagree q hq]) he i hi

theorem nodup_allIdx (s : List Nat) : (allIdx s).Nodup := by
  rw [allIdx_eq_map]
  refine List.Nodup.map_on (fun i hi j hj h => ?_) List.nodup_range
  rw [List.mem_range] at hi hj
  rw [← offset_unflat hi, h, offset_unflat hj]

theorem nodup_cells {h : Heap T} {m : Mat} (g : GoodMat h m) (hnd : m.ops.Nodup) : ((allIdx m.shape).map (cell m)).Nodup := by
  refine List.Nodup.map_on (fun i hi j hj e => ?_) (nodup_allIdx _)
  exact cell_inj g hnd (mem_allIdx.1 hi) (mem_allIdx.1 hj) e

/-- every element of a tensor is assigned something computed from another tensor -/
theorem fill_holds {h0 h h' : Heap T} {inM outM : Mat} {r : List Nat → Rhs T} {x y : STensor T} (g : GoodMat h0 outM)
    (hnd : outM.ops.Nodup) (hdis : ∀ q ∈ inM.ops, q ∉ outM.ops) (hn : h0.next ≤ h.next) (so : outM.shape = y.shape)
    (H : Holds h inM x)
    (hv : ∀ i, InRange outM.shape i → ∀ h1, Holds h1 inM x → ∀ u, (r i).eval h1 = .ok u → u = y.get i)
    (he : exec ((allIdx outM.shape).map fun i => Op.asg (cell outM i) (r i)) h = .ok () h') : Holds h' outM y := by
  obtain ⟨f1, f2⟩ := exec_frame he
  refine holds_of_cell (g.mono (by omega)) so fun idx hi => ?_
  refine exec_writes (D := (· ∈ outM.ops)) (nodup_cells g hnd) (fun i hi => cell_mem g (mem_allIdx.1 hi)) ?_ he idx (mem_allIdx.2 hi)
  intro i hi h1 hnx hag u hu
  exact hv i (mem_allIdx.1 hi) h1 (H.kept (by omega) fun q hq => hag q (hdis q hq)) u hu

theorem dsts_fill {l : List (List Nat)} {m : Mat} {r : List Nat → Rhs T} {h : Heap T} (g : GoodMat h m)
    (hl : ∀ i ∈ l, InRange m.shape i) {q : Ptr} (hq : q ∈ dsts (l.map fun i => Op.asg (cell m i) (r i))) : q ∈ m.ops := by
  obtain ⟨r', hr⟩ := mem_dsts.1 hq
  obtain ⟨i, hi, e⟩ := List.mem_map.1 hr
  injection e with e1 _
  rw [← e1]; exact cell_mem g (hl i hi)

theorem shape3 {s : List Nat} (h : s.length = 3) : s = [s.getD 0 0, s.getD 1 0, s.getD 2 0] := by
  match s, h with
  | [a, b, c], _ => rfl

theorem inRange3 {a b c : Nat} {i : List Nat} (h : InRange [a, b, c] i) :
    i = [i.getD 0 0, i.getD 1 0, i.getD 2 0] ∧ i.getD 0 0 < a ∧ i.getD 1 0 < b ∧ i.getD 2 0 < c := by
  have hl := inRange_length h
  match i, hl with
  | [x, y, z], _ =>
    simp only [InRange, List.forall₂_cons, List.forall₂_nil_left_iff] at h
    exact ⟨rfl, h.1, h.2.1, h.2.2.1⟩

theorem mk3 {a b c x y z : Nat} (h1 : x < a) (h2 : y < b) (h3 : z < c) : InRange [a, b, c] [x, y, z] :=
  .cons h1 (.cons h2 (.cons h3 .nil))

/-- the common part of the two layers: a new tensor, one assignment to each element, and `Dif` -/
theorem fill_done {s : LSpec T} {l p : Nat} {own R : Ptr → Prop} {inp : Nat} {inM outM : Mat} {r : List Nat → Rhs T}
    {k : Nat} {w w1 w4 : World T} (rin : Ready w inp inM)
    (g1 : Grow (· = l) (fun _ => False) [] w w1) (rout : Ready w1 w.nodeNext outM) (hnd : outM.ops.Nodup)
    (hfr : ∀ q ∈ outM.ops, w.store.heap.next ≤ q)
    (hl1 : w1.layers l = { w.layers l with output := some w.nodeNext })
    (g4 : Grow (· = l) (fun _ => False) [] (emitted k ((allIdx outM.shape).map fun i => Op.asg (cell outM i) (r i)) w1) w4)
    {d : Nat} (hl4 : w4.layers l = { w1.layers l with dif := some d })
    (hd : ∃ dM, Ready w4 d dM ∧ (w4.store.nodes d).kind = .leaf ∧ dM.shape = outM.shape ∧ dM.ops.Nodup ∧
      ∀ q ∈ dM.ops, (emitted k ((allIdx outM.shape).map fun i => Op.asg (cell outM i) (r i)) w1).store.heap.next ≤ q)
    (hw : s.weighted = false ∧ s ≠ .softMax ∧ s ≠ .flatten ∧ s ≠ .norm ∧ s ≠ .eNorm) (hrp : (w.layers p).ref < w.store.heap.next)
    (wn : (w.layers l).weights = none ∧ (w.layers l).bias = none)
    (so : outM.shape = s.outShape inM.shape) (hps : s.paramShapes inM.shape = []) (hfn : ∀ pv x, s.fn pv x = s.fn [] x)
    (hfs : ∀ x : STensor T, x.shape = inM.shape → (s.fn [] x).shape = outM.shape)
    (hv : ∀ x i, InRange outM.shape i → ∀ h1, Holds h1 inM x → ∀ u, (r i).eval h1 = .ok u → u = (s.fn [] x).get i)
    (hrd : ∀ i, InRange outM.shape i → ∀ q ∈ (r i).reads, q ∈ inM.ops)
    (hfine : s.safe inM.shape → ∀ i, InRange outM.shape i → (∀ q ∈ (r i).reads, 0 < q) → 0 < cell outM i →
      Fine (.asg (cell outM i) (r i))) :
    ∃ ops out outM K, FFDone s l own R inM ops out outM K w w4 ∧ FFMore s l p inM ops outM K w w4 := by
  obtain ⟨dM, rd, kd, sd, nd, fd⟩ := hd
  have ge := grow_emitted (L := (· = l)) (C := fun _ => False) k
    ((allIdx outM.shape).map fun i => Op.asg (cell outM i) (r i)) w1
  have G := (g1.trans ge).trans g4
  simp only [List.append_nil, List.nil_append] at G
  have hin : ∀ q ∈ inM.ops, q < w.store.heap.next := fun q hq => (rin.good.valid q hq).2
  have n1 := g1.next
  have n2 := ge.next
  have n3 := g4.next
  have hcell : ∀ q ∈ outM.ops, w.store.heap.next ≤ q ∧ q < w4.store.heap.next := fun q hq => by
    have := (rout.good.valid q hq).2
    exact ⟨hfr q hq, by omega⟩
  have hlay : w4.layers l = { w.layers l with output := some w.nodeNext, dif := some d, ref := (w.layers l).ref, maxScalar := (w.layers l).maxScalar } := by
    rw [hl4, hl1]
  refine ⟨_, w.nodeNext, outM, fun _ _ => False, ffDone_plain (G.weaken (fun _ h => h) fun _ h => h.elim)
    ⟨_, _, _, hlay, Or.inl rfl⟩ wn ((rout.grow ge).grow g4) so hps hfn
    (fun q hq => hcell q (dsts_fill rout.good (fun i hi => mem_allIdx.1 hi) hq)) (fun q hq => Or.inr (hcell q hq))
    (fun _ _ h => h.elim) (fun h h' x hn _ H he => ?_) (fun hs o ho => ?_) fun _ _ h => h.elim,
    ffMore_plain wn hlay hw.1 (fun h => absurd h hw.2.1) (fun _ => ⟨d, dM, rfl, rd, kd, sd, nd, fun q hq => ?_⟩)
      (fun _ => ⟨rfl, G.val _ hrp id⟩) (fun h => absurd h hw.2.2.1) fun h => absurd h (by simp [hw])⟩
  · refine fill_holds rout.good hnd (fun q hq hq' => ?_) (by omega) (hfs x H.shape.symm).symm H (hv x) he
    have := hin q hq; have := hfr q hq'; omega
  · obtain ⟨i, hi, rfl⟩ := List.mem_map.1 ho
    rw [mem_allIdx] at hi
    exact hfine hs i hi (fun q hq => (rin.good.valid q (hrd i hi q hq)).1) (rout.good.valid _ (cell_mem rout.good hi)).1
  · have h1 := fd q hq
    have h2 : ∀ q ∈ outM.ops, q < w1.store.heap.next := fun q h => (rout.good.valid q h).2
    refine ⟨by omega, fun h => ?_, fun h => ?_, fun _ h => h⟩
    · have := h2 q (dsts_fill rout.good (fun i hi => mem_allIdx.1 hi) h); omega
    · have := h2 q h; omega

theorem ffGood_upSampling (k : Nat) : FFGood (.upSampling k : LSpec T) := by
  intro w fuel l p inp inM P
  have h3 : inM.shape.length = 3 := P.fits
  obtain ⟨a, b, c, hsh⟩ : ∃ a b c, inM.shape = [a, b, c] := ⟨_, _, _, shape3 h3⟩
  show wp True (LayerM.upSamplingFF k k l) _ w
  unfold LayerM.upSamplingFF
  refine wp_bind (wp_layer ?_)
  refine wp_bind (wp_deref P.input ?_)
  refine wp_bind (wp_mat ?_)
  rw [P.rin.mat, hsh]
  simp only [List.length_cons, List.length_nil, ne_eq, not_true_eq_false, if_false, List.getD_cons_zero, List.getD_cons_succ,
    Nat.zero_add]
  refine wp_bind (wp_zeros (L := (· = l)) (C := fun _ => False) P.pos fun w1 outM g1 l1 x1 r1 s1 nd1 f1 => ?_)
  have q1 : 0 < w1.store.heap.next := lt_of_lt_of_le P.pos g1.next
  refine wp_bind (wp_modify ?_)
  have m1 := grow_modify (L := (· = l)) (C := fun _ => False) rfl (fun x => { x with output := some w.nodeNext }) w1
  set w2 : World T := { w1 with layers := fun k => if k = l then { w1.layers k with output := some w.nodeNext } else w1.layers k } with hw2
  have G := g1.trans m1
  simp only [List.append_nil] at G
  have rin2 := P.rin.grow G
  have rout2 := r1.grow m1
  have hcell : ∀ f, f < a → ∀ px, px < b * k → ∀ py, py < c * k → Emits w2.store.nodes (do
        let o ← Run.operand w.nodeNext [f, px, py]
        let i ← Run.operand inp [f, px / k, py / k]
        Run.push (.asg o (.set i)) : Run T Unit) (fun _ => ()) 0
        (fun _ => [Op.asg (cell outM [f, px, py]) (Rhs.set (cell inM [f, px / k, py / k]))]) := fun f hf px hx py hy =>
      (Emits.bind (Emits.operand (idx := [f, px, py]) rout2.mat rout2.good (by rw [s1]; exact mk3 hf hx hy)) fun _ =>
      Emits.bind (Emits.operand (idx := [f, px / k, py / k]) rin2.mat rin2.good (by
        rw [hsh]
        exact mk3 hf (Nat.div_lt_of_lt_mul (by rw [Nat.mul_comm]; exact hx)) (Nat.div_lt_of_lt_mul (by rw [Nat.mul_comm]; exact hy)))) fun _ =>
      Emits.push (.asg (cell outM [f, px, py]) (.set (cell inM [f, px / k, py / k])))).congr (fun _ => rfl) rfl (fun _ => rfl)
  have hem := Emits.each fun f hf => Emits.each fun px hx => Emits.each fun py hy => hcell f hf px hx py hy
  refine wp_bind (wp_of_ok (hem w2 rfl) ?_)
  rw [loop3 a (b * k) (c * k) fun f x y => [Op.asg (cell outM [f, x, y]) (Rhs.set (cell inM [f, x / k, y / k]))]]
  have hops : ((allIdx [a, b * k, c * k]).flatMap fun i =>
      [Op.asg (cell outM [i.getD 0 0, i.getD 1 0, i.getD 2 0]) (Rhs.set (cell inM [i.getD 0 0, i.getD 1 0 / k, i.getD 2 0 / k]) : Rhs T)]) =
      (allIdx outM.shape).map fun i => Op.asg (cell outM i) (Rhs.set (cell inM [i.getD 0 0, i.getD 1 0 / k, i.getD 2 0 / k])) := by
    rw [s1, List.map_eq_flatMap]
    refine List.flatMap_congr fun i hi => ?_
    rw [← (inRange3 (mem_allIdx.1 hi)).1]
  rw [hops]
  have hir : ∀ i, InRange outM.shape i → InRange inM.shape [i.getD 0 0, i.getD 1 0 / k, i.getD 2 0 / k] := fun i hi => by
    rw [s1] at hi
    obtain ⟨_, i0, i1, i2⟩ := inRange3 hi
    rw [hsh]
    exact mk3 i0 (Nat.div_lt_of_lt_mul (by rw [Nat.mul_comm]; exact i1)) (Nat.div_lt_of_lt_mul (by rw [Nat.mul_comm]; exact i2))
  refine wp_zeroDif (C := fun _ => False) ?_ fun w4 g4 l4 _ hdif => ?_
  · show 0 < w2.store.heap.next + _
    have : 0 < w2.store.heap.next := q1
    omega
  refine fill_done P.rin G rout2 nd1 f1 (by simp [hw2, l1]) g4 l4 (by
    obtain ⟨dM, e1, e2, e3, e4, e5⟩ := hdif
    exact ⟨dM, e1, e2, by rw [e3]; exact congrArg Mat.shape rout2.mat, e4, e5⟩) (by simp [LSpec.weighted]) P.refb.1 P.wn (by rw [s1]; simp [LSpec.outShape, hsh]) rfl (fun _ _ => rfl) ?_ ?_ ?_ ?_
  · intro x hx
    rw [s1]
    show [x.shape.getD 0 0, x.shape.getD 1 0 * k, x.shape.getD 2 0 * k] = _
    rw [hx, hsh]; rfl
  · intro x i hi h1 H u hu
    simp only [Rhs.eval] at hu
    rw [(load_ok hu).2, holds_cell H (hir i hi)]
    rfl
  · intro i hi q hq
    simp only [Rhs.reads, List.mem_singleton] at hq
    subst hq; exact cell_mem rin2.good (hir i hi)
  · intro _ i hi hr hc
    exact ⟨hc, hr, trivial, trivial⟩

/-- the scalars of a window -/
def windowCells (inM : Mat) (sx sy h w f x y : Nat) : List Ptr :=
  (window sx sy h w x y).map fun p => cell inM [f, p.1, p.2]

theorem poolWindow_emits {N : Nat → Node T} {inp : Nat} {inM : Mat} {hp : Heap T} {sx sy a h w f x y : Nat}
    (hm : (N inp).mat = inM) (g : GoodMat hp inM) (hs : inM.shape = [a, h, w]) (hf : f < a) :
    Emits N (LayerM.poolWindow inp sx sy h w f x y : Run T (List Ptr)) (fun _ => windowCells inM sx sy h w f x y) 0 (fun _ => []) := by
  have h1 : ∀ i ∈ (List.range sx).filter fun i => x * sx + i < h, Emits N
      (Run.collect ((List.range sy).filter fun j => y * sy + j < w) fun j => Run.operand inp [f, x * sx + i, y * sy + j] : Run T (List Ptr))
      (fun _ => ((List.range sy).filter fun j => y * sy + j < w).map fun j => cell inM [f, x * sx + i, y * sy + j]) 0 (fun _ => []) := by
    intro i hi
    refine Emits.collectPure fun j hj => Emits.operand hm g ?_
    rw [hs]
    simp only [List.mem_filter, List.mem_range, decide_eq_true_eq] at hi hj
    exact mk3 hf hi.2 hj.2
  unfold LayerM.poolWindow
  refine (Emits.bind (f := fun rows => pure rows.flatten) (Emits.collectPure h1) fun _ => Emits.pure _).congr (fun p => ?_) rfl (fun _ => rfl)
  simp only [windowCells, window, List.map_flatMap, List.map_map, List.flatten_eq_flatMap, List.flatMap_map]
  rfl

theorem mem_windowCells {inM : Mat} {hp : Heap T} {sx sy a h w f x y : Nat} (g : GoodMat hp inM) (hs : inM.shape = [a, h, w])
    (hf : f < a) {q : Ptr} (hq : q ∈ windowCells inM sx sy h w f x y) : q ∈ inM.ops := by
  simp only [windowCells, window, List.mem_map, List.mem_flatMap, List.mem_filter, List.mem_range, decide_eq_true_eq] at hq
  obtain ⟨_, ⟨i, ⟨_, h1⟩, j, ⟨_, h2⟩, rfl⟩, rfl⟩ := hq
  exact cell_mem g (by rw [hs]; exact mk3 hf h1 h2)

theorem window_ne {sx sy h w x y : Nat} (h1 : 1 < sx) (h2 : 1 < sy) (hx : x < (h + 1) / sx) (hy : y < (w + 1) / sy) :
    window sx sy h w x y ≠ [] := by
  have a1 : (x + 1) * sx ≤ h + 1 := (Nat.le_div_iff_mul_le (by omega)).1 hx
  have a2 : (y + 1) * sy ≤ w + 1 := (Nat.le_div_iff_mul_le (by omega)).1 hy
  rw [Nat.succ_mul] at a1 a2
  have : (x * sx + 0, y * sy + 0) ∈ window sx sy h w x y := by
    simp only [window, List.mem_flatMap, List.mem_map, List.mem_filter, List.mem_range, decide_eq_true_eq]
    exact ⟨0, ⟨by omega, by omega⟩, 0, ⟨by omega, by omega⟩, rfl⟩
  intro h
  rw [h] at this; cases this

theorem ffGood_maxPool (sx sy : Nat) : FFGood (.maxPool sx sy : LSpec T) := by
  intro w fuel l p inp inM P
  obtain ⟨h3, hx0, hy0⟩ := P.fits
  obtain ⟨a, b, c, hsh⟩ : ∃ a b c, inM.shape = [a, b, c] := ⟨_, _, _, shape3 h3⟩
  show wp True (LayerM.maxPoolFF sx sy l) _ w
  unfold LayerM.maxPoolFF
  refine wp_bind (wp_layer ?_)
  refine wp_bind (wp_deref P.input ?_)
  refine wp_bind (wp_mat ?_)
  rw [P.rin.mat, hsh]
  simp only [List.length_cons, List.length_nil, ne_eq, not_true_eq_false, if_false, List.getD_cons_zero, List.getD_cons_succ,
    Nat.zero_add]
  refine wp_bind (wp_lift (a := (b + 1) / sx) (by unfold divU; rw [if_neg (by omega)]) ?_)
  refine wp_bind (wp_lift (a := (c + 1) / sy) (by unfold divU; rw [if_neg (by omega)]) ?_)
  refine wp_bind (wp_zeros (L := (· = l)) (C := fun _ => False) P.pos fun w1 outM g1 l1 x1 r1 s1 nd1 f1 => ?_)
  have q1 : 0 < w1.store.heap.next := lt_of_lt_of_le P.pos g1.next
  refine wp_bind (wp_modify ?_)
  have m1 := grow_modify (L := (· = l)) (C := fun _ => False) rfl (fun x => { x with output := some w.nodeNext }) w1
  set w2 : World T := { w1 with layers := fun k => if k = l then { w1.layers k with output := some w.nodeNext } else w1.layers k } with hw2
  have G := g1.trans m1
  simp only [List.append_nil] at G
  have rin2 := P.rin.grow G
  have rout2 := r1.grow m1
  have hcell : ∀ f, f < a → ∀ px, px < (b + 1) / sx → ∀ py, py < (c + 1) / sy → Emits w2.store.nodes (do
        let n ← Run.operand w.nodeNext [f, px, py]
        let ops ← LayerM.poolWindow inp sx sy b c f px py
        Run.push (.asg n (.max ops)) : Run T Unit) (fun _ => ()) 0
        (fun _ => [Op.asg (cell outM [f, px, py]) (Rhs.max (windowCells inM sx sy b c f px py))]) := fun f hf px hx py hy =>
      (Emits.bind (Emits.operand (idx := [f, px, py]) rout2.mat rout2.good (by rw [s1]; exact mk3 hf hx hy)) fun _ =>
      Emits.bind (poolWindow_emits rin2.mat rin2.good hsh hf) fun _ =>
      Emits.push (.asg (cell outM [f, px, py]) (.max (windowCells inM sx sy b c f px py)))).congr (fun _ => rfl) rfl (fun _ => rfl)
  have hem := Emits.each fun f hf => Emits.each fun px hx => Emits.each fun py hy => hcell f hf px hx py hy
  refine wp_bind (wp_of_ok (hem w2 rfl) ?_)
  rw [loop3 a ((b + 1) / sx) ((c + 1) / sy) fun f x y => [Op.asg (cell outM [f, x, y]) (Rhs.max (windowCells inM sx sy b c f x y))]]
  have hops : ((allIdx [a, (b + 1) / sx, (c + 1) / sy]).flatMap fun i =>
      [Op.asg (cell outM [i.getD 0 0, i.getD 1 0, i.getD 2 0]) (Rhs.max (windowCells inM sx sy b c (i.getD 0 0) (i.getD 1 0) (i.getD 2 0)) : Rhs T)]) =
      (allIdx outM.shape).map fun i => Op.asg (cell outM i) (Rhs.max (windowCells inM sx sy b c (i.getD 0 0) (i.getD 1 0) (i.getD 2 0))) := by
    rw [s1, List.map_eq_flatMap]
    refine List.flatMap_congr fun i hi => ?_
    rw [← (inRange3 (mem_allIdx.1 hi)).1]
  rw [hops]
  refine wp_zeroDif (C := fun _ => False) ?_ fun w4 g4 l4 _ hdif => ?_
  · show 0 < w2.store.heap.next + _
    have : 0 < w2.store.heap.next := q1
    omega
  refine fill_done P.rin G rout2 nd1 f1 (by simp [hw2, l1]) g4 l4 (by
    obtain ⟨dM, e1, e2, e3, e4, e5⟩ := hdif
    exact ⟨dM, e1, e2, by rw [e3]; exact congrArg Mat.shape rout2.mat, e4, e5⟩) (by simp [LSpec.weighted]) P.refb.1 P.wn (by rw [s1]; simp [LSpec.outShape, hsh]) rfl (fun _ _ => rfl) ?_ ?_ ?_ ?_
  · intro x hx
    rw [s1]
    show [x.shape.getD 0 0, (x.shape.getD 1 0 + 1) / sx, (x.shape.getD 2 0 + 1) / sy] = _
    rw [hx, hsh]; rfl
  · intro x i hi h1 H u hu
    rw [s1] at hi
    obtain ⟨_, i0, _, _⟩ := inRange3 hi
    rw [red_eval (o := .max) hu]
    show max1 _ = max1 _
    have e1 : x.shape = [a, b, c] := by rw [← H.shape, hsh]
    rw [e1]
    show max1 _ = max1 ((window sx sy b c (i.getD 1 0) (i.getD 2 0)).map _)
    congr 1
    unfold windowCells
    rw [List.map_map]
    refine List.map_congr_left fun p hp => holds_cell H ?_
    simp only [window, List.mem_map, List.mem_flatMap, List.mem_filter, List.mem_range, decide_eq_true_eq] at hp
    obtain ⟨i, ⟨_, h1⟩, j, ⟨_, h2⟩, rfl⟩ := hp
    rw [hsh]; exact mk3 i0 h1 h2
  · intro i hi q hq
    rw [s1] at hi
    exact mem_windowCells rin2.good hsh (inRange3 hi).2.1 hq
  · intro hs i hi hr hc
    refine ⟨hc, hr, ?_, trivial⟩
    rw [s1] at hi
    obtain ⟨_, i0, i1, i2⟩ := inRange3 hi
    show windowCells inM sx sy b c (i.getD 0 0) (i.getD 1 0) (i.getD 2 0) ≠ []
    rcases hs with hs | hs
    · intro h
      exact window_ne hs.1 hs.2 i1 i2 (List.map_eq_nil_iff.1 h)
    · rw [hsh] at hs
      simp only [List.getD_cons_zero] at hs
      omega

end Godeep
