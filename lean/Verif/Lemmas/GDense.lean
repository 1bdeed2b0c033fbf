import Verif.Lemmas.GFront
/-
  Back-propagation through dense layers.
-/
set_option linter.unusedSectionVars false

namespace Godeep
open Spec GoNum

variable {T : Type} [GoNum T]

theorem getD_valid {h : Heap T} {m : Mat} (g : GoodMat h m) {i : Nat} (hi : i < size m.shape) :
    m.ops.getD i 0 ∈ m.ops ∧ 0 < m.ops.getD i 0 ∧ m.ops.getD i 0 < h.next := by
  have hm : m.ops.getD i 0 ∈ m.ops := by
    rw [List.getD_eq_getElem _ _ (by rw [g.len]; exact hi)]; exact List.getElem_mem _
  exact ⟨hm, g.valid _ hm⟩

theorem getD_holds {h : Heap T} {m : Mat} {t : STensor T} (H : Holds h m t) {j : Nat} (hj : j < size m.shape) :
    h.val (m.ops.getD j 0) = t.get (unflat t.shape j) := by
  rw [← cell_unflat hj, holds_cell H (unflat_inRange hj), H.shape]

/-- what is added to the error of element `i` of the layer before -/
def densePreE (rM wM derM pM : Mat) (outputs : Nat) (i : Nat) (v : Ptr → T) : T :=
  add (v (pM.ops.getD i 0)) (mul (sum1 ((List.range outputs).map fun j => mul (v (cell rM [j])) (v (cell wM [j, i])))) (v (derM.ops.getD i 0)))

theorem densePre_effect {w : World T} {dif wn der pdif outputs inputs : Nat} {rM wM derM pM : Mat} (rr : Ready w dif rM) (rw : Ready w wn wM)
    (rd : Ready w der derM) (rp : Ready w pdif pM) (sr : rM.shape = [outputs]) (sw : wM.shape = [outputs, inputs]) (sd : size derM.shape = inputs)
    (sp : size pM.shape = inputs) (i : Nat) (hi : i < inputs) (lo : Nat) (hlo : w.store.heap.next ≤ lo) :
    ∃ hi' ops, Em w (LayerM.densePre dif wn der pdif outputs i) lo hi' () ops ∧ Effect w.store.heap.next lo hi' (· ∈ pM.ops) ops
      (fun v => Function.update v (pM.ops.getD i 0) (densePreE rM wM derM pM outputs i v)) (0 < outputs) := by
  unfold LayerM.densePre
  have ir : ∀ j < outputs, InRange rM.shape [j] := fun j hj => by rw [sr]; exact .cons hj .nil
  have iw : ∀ j < outputs, InRange wM.shape [j, i] := fun j hj => by rw [sw]; exact .cons hj (.cons hi .nil)
  obtain ⟨m1, xs, o1, em, V⟩ := Vals.collect1 (N := w) (base := w.store.heap.next) (safe := 0 < outputs) (f := fun j => do
      let d ← Run.operand dif [j]
      let wt ← Run.operand wn [j, i]
      Run.emit (.mul d wt)) (e := fun j v => mul (v (cell rM [j])) (v (cell wM [j, i]))) (List.range outputs) (fun j hj lo hlo => by
        have hj := List.mem_range.1 hj
        exact ⟨lo + 1, lo, [.asg lo (.mul (cell rM [j]) (cell wM [j, i]))],
          Em.bind (o1 := []) (Em.operand rr.mat rr.good (ir j hj) _) (Em.bind (o1 := []) (Em.operand rw.mat rw.good (iw j hj) _) (Em.emit _ _)),
          Vals.mul (rr.good.valid _ (cell_mem rr.good (ir j hj))) (rw.good.valid _ (cell_mem rw.good (iw j hj))) hlo⟩) lo hlo
  have l1 := V.le
  obtain ⟨hpm, hp0, hp1⟩ := getD_valid rp.good (i := i) (by rw [sp]; exact hi)
  obtain ⟨hdm, hd0, hd1⟩ := getD_valid rd.good (i := i) (by rw [sd]; exact hi)
  refine ⟨m1 + 2, (o1 ++ [.asg m1 (.sum xs), .asg (m1 + 1) (.mul m1 (derM.ops.getD i 0))]) ++ [.asg (pM.ops.getD i 0) (.add (pM.ops.getD i 0) (m1 + 1))], ?_, ?_⟩
  · have := Em.bind em (f := fun ops => (do
      let sum ← Run.emit (.sum ops)
      let d ← Run.operandAt der i
      let nd ← Run.scalar (zero : T)
      let pd ← Run.operandAt pdif i
      Run.push (.asg nd (.mul sum d))
      Run.push (.asg pd (.add pd nd)))) (Em.bind (o1 := [_]) (Em.emit _ _) (Em.bind (o1 := []) (Em.operandAt rd.mat rd.good (by rw [sd]; exact hi) _)
        (Em.bind (o1 := []) (Em.scalar _) (Em.bind (o1 := []) (Em.operandAt rp.mat rp.good (by rw [sp]; exact hi) _)
          (Em.bind (o1 := [_]) (Em.push _ _) (Em.push _ _))))))
    simpa using this
  · refine Effect.asg (by omega) hlo (fun q hq => ?_) (fun hs o ho => ?_) (fun _ => ?_) hpm (fun v => ?_) fun v v' hv => ?_
    · rw [dsts_append, List.mem_append] at hq
      rcases hq with hq | hq
      · have := V.dst q hq; omega
      · simp only [dsts_asg, dsts_nil, List.mem_cons, List.not_mem_nil, or_false] at hq; omega
    · rcases List.mem_append.1 ho with ho | ho
      · exact V.fine hs o ho
      · simp only [List.mem_cons, List.not_mem_nil, or_false] at ho
        rcases ho with rfl | rfl
        · refine ⟨by omega, fun q hq => (V.rng q hq).1, ?_, trivial⟩
          show xs ≠ []
          intro h0
          have hl := congrArg List.length (V.val fun _ => zero)
          rw [h0] at hl
          simp at hl
          omega
        · exact ⟨by omega, by simp only [Rhs.reads, List.mem_cons, List.not_mem_nil, or_false, forall_eq_or_imp, forall_eq]; omega, trivial, trivial⟩
    · exact ⟨hp0, by simp only [Rhs.reads, List.mem_cons, List.not_mem_nil, or_false, forall_eq_or_imp, forall_eq]; omega, trivial, trivial⟩
    · unfold densePreE
      rw [execV_append]
      have V' := V.val v
      have fr : ∀ q, q < w.store.heap.next → execV o1 v q = v q := fun q hq => execV_frame fun hd => by have := V.dst q hd; omega
      obtain ⟨u, hu⟩ : ∃ u, u = execV o1 v := ⟨_, rfl⟩
      rw [← hu] at V' fr ⊢
      simp only [execV_asg, execV_nil, Rhs.ev, V']
      rw [Function.update_self, Function.update_self, Function.update_of_ne (by omega), Function.update_of_ne (by omega), Function.update_of_ne (by omega),
        fr _ hp1, fr _ hd1]
    · have := V.loc v v' hv
      unfold densePreE
      rw [this, hv _ hp1, hv _ hd1]

/-- the new weight at `k` -/
def denseW (rM wM mwM inM : Mat) (alpha momentum : Ptr) (k : List Nat) (v : Ptr → T) : T :=
  sum1 [v (cell wM k), mul (v (cell mwM k)) (v momentum), mul (mul (v (cell rM [k.getD 0 0])) (v alpha)) (v (inM.ops.getD (k.getD 1 0) 0))]

/-- the new bias at `k` -/
def denseB (rM bM mbM : Mat) (alpha momentum : Ptr) (k : List Nat) (v : Ptr → T) : T :=
  sum1 [v (cell bM k), mul (v (cell mbM k)) (v momentum), mul (v (cell rM k)) (v alpha)]

theorem denseUpdate_effect {w : World T} {dif wn bn nw mw nb mb inp outputs inputs : Nat} {rM wM bM nwM mwM nbM mbM inM : Mat} {alpha momentum : Ptr}
    (rr : Ready w dif rM) (rw : Ready w wn wM) (rb : Ready w bn bM) (rnw : Ready w nw nwM) (rmw : Ready w mw mwM) (rnb : Ready w nb nbM) (rmb : Ready w mb mbM)
    (ri : Ready w inp inM) (sr : rM.shape = [outputs]) (sw : wM.shape = [outputs, inputs]) (sb : bM.shape = [outputs]) (snw : nwM.shape = [outputs, inputs])
    (smw : mwM.shape = [outputs, inputs]) (snb : nbM.shape = [outputs]) (smb : mbM.shape = [outputs]) (si : size inM.shape = inputs)
    (ha : 0 < alpha ∧ alpha < w.store.heap.next) (hm : 0 < momentum ∧ momentum < w.store.heap.next)
    (dis : ∀ q, q ∈ nwM.ops ∨ q ∈ nbM.ops → q ∉ rM.ops ∧ q ≠ alpha)
    (i : Nat) (hi : i < outputs) (lo : Nat) (hlo : w.store.heap.next ≤ lo) :
    ∃ hi' ops, Em w (LayerM.denseUpdate dif wn bn nw mw nb mb inp alpha momentum inputs i) lo hi' () ops ∧
      Effect w.store.heap.next lo hi' (fun q => q ∈ nwM.ops ∨ q ∈ nbM.ops) ops
      (fun v => (allIdx [inputs]).foldl (fun v k => Function.update v (cell nwM (i :: k)) (denseW rM wM mwM inM alpha momentum (i :: k) v))
        (Function.update v (cell nbM [i]) (denseB rM bM mbM alpha momentum [i] v))) True := by
  unfold LayerM.denseUpdate
  have i1 : ∀ {m : Mat}, m.shape = [outputs] → InRange m.shape [i] := fun h => by rw [h]; exact .cons hi .nil
  have i2 : ∀ {m : Mat}, m.shape = [outputs, inputs] → ∀ j < inputs, InRange m.shape [i, j] := fun h j hj => by rw [h]; exact .cons hi (.cons hj .nil)
  obtain ⟨pr, cr⟩ := rr.good.valid _ (cell_mem rr.good (i1 sr))
  obtain ⟨pb, cb⟩ := rb.good.valid _ (cell_mem rb.good (i1 sb))
  obtain ⟨pm, cm⟩ := rmb.good.valid _ (cell_mem rmb.good (i1 smb))
  obtain ⟨pn, cn⟩ := rnb.good.valid _ (cell_mem rnb.good (i1 snb))
  obtain ⟨o1, ho1⟩ : ∃ o1 : List (Op T), o1 = [.asg lo (.mul (cell rM [i]) alpha), .asg (lo + 1) (.mul (cell mbM [i]) momentum),
    .asg (cell nbM [i]) (.sum [cell bM [i], lo + 1, lo])] := ⟨_, rfl⟩
  -- the loop over the weights
  obtain ⟨hi', o2, m2, A⟩ := Effect.range (N := w) (base := lo + 2) (n := inputs) (s := []) (W := fun q => q ∈ nwM.ops ∨ q ∈ nbM.ops) (safe := True)
    (f := fun j => do
      let input ← Run.operandAt inp j
      let m ← Run.operand mw [i, j]
      let delta ← Run.emit (.mul lo input)
      let moment ← Run.emit (.mul m momentum)
      let weight ← Run.operand wn [i, j]
      let newWeight ← Run.operand nw [i, j]
      Run.push (.asg newWeight (.sum [weight, moment, delta])))
    (F := fun k v => Function.update v (cell nwM (i :: k)) (sum1 [v (cell wM (i :: k)), mul (v (cell mwM (i :: k))) (v momentum),
      mul (v lo) (v (inM.ops.getD (k.getD 0 0) 0))])) (fun j hj l2 hl2 => by
      obtain ⟨pw, cw⟩ := rw.good.valid _ (cell_mem rw.good (i2 sw j hj))
      obtain ⟨pmw, cmw⟩ := rmw.good.valid _ (cell_mem rmw.good (i2 smw j hj))
      obtain ⟨pnw, cnw⟩ := rnw.good.valid _ (cell_mem rnw.good (i2 snw j hj))
      obtain ⟨_, pi, ci⟩ := getD_valid ri.good (i := j) (by rw [si]; exact hj)
      refine ⟨l2 + 2, [.asg l2 (.mul lo (inM.ops.getD j 0)), .asg (l2 + 1) (.mul (cell mwM [i, j]) momentum)] ++
        [.asg (cell nwM [i, j]) (.sum [cell wM [i, j], l2 + 1, l2])], ?_, ?_⟩
      · exact Em.bind (o1 := []) (Em.operandAt ri.mat ri.good (by rw [si]; exact hj) _) (Em.bind (o1 := []) (Em.operand rmw.mat rmw.good (i2 smw j hj) _)
          (Em.bind (o1 := [_]) (Em.emit _ _) (Em.bind (o1 := [_]) (Em.emit _ _) (Em.bind (o1 := []) (Em.operand rw.mat rw.good (i2 sw j hj) _)
            (Em.bind (o1 := []) (Em.operand rnw.mat rnw.good (i2 snw j hj) _) (Em.push _ _))))))
      · refine (Effect.asg (E := fun v => sum1 [v (cell wM [i, j]), mul (v (cell mwM [i, j])) (v momentum), mul (v lo) (v (inM.ops.getD j 0))])
          (by omega) hl2 (by simp) (fun _ op hop => ?_) (fun _ => ?_) (Or.inl (cell_mem rnw.good (i2 snw j hj))) (fun v => ?_) fun v v' hv => ?_).one fun v => ?_
        · simp only [List.mem_cons, List.not_mem_nil, or_false] at hop
          rcases hop with rfl | rfl
          · exact ⟨by omega, by simp only [Rhs.reads, List.mem_cons, List.not_mem_nil, or_false, forall_eq_or_imp, forall_eq]; omega, trivial, trivial⟩
          · exact ⟨by omega, by simp only [Rhs.reads, List.mem_cons, List.not_mem_nil, or_false, forall_eq_or_imp, forall_eq]; omega, trivial, trivial⟩
        · exact ⟨pnw, by simp only [Rhs.reads, List.mem_cons, List.not_mem_nil, or_false, forall_eq_or_imp, forall_eq]; omega, by simp [ArgsNonempty], trivial⟩
        · simp only [execV_asg, execV_nil, Rhs.ev, List.map_cons, List.map_nil]
          simp only [Function.update_apply]
          simp [show cell wM [i, j] ≠ l2 + 1 by omega, show cell wM [i, j] ≠ l2 by omega, show cell mwM [i, j] ≠ l2 by omega, show momentum ≠ l2 by omega]
        · rw [hv (cell wM [i, j]) (by omega), hv (cell mwM [i, j]) (by omega), hv momentum (by omega), hv lo (by omega), hv (inM.ops.getD j 0) (by omega)]
        · rfl) (lo + 2) le_rfl
  have l2 := A.le
  refine ⟨hi', o1 ++ o2, ?_, ?_⟩
  · rw [ho1]
    exact Em.bind (o1 := []) (Em.operand rr.mat rr.good (i1 sr) _) (Em.bind (o1 := [_]) (Em.emit _ _) (Em.bind (o1 := []) (Em.operand rmb.mat rmb.good (i1 smb) _)
      (Em.bind (o1 := [_]) (Em.emit _ _) (Em.bind (o1 := []) (Em.operand rb.mat rb.good (i1 sb) _) (Em.bind (o1 := []) (Em.operand rnb.mat rnb.good (i1 snb) _)
        (Em.bind (o1 := [_]) (Em.push _ _) m2))))))
  · have e1 : ∀ v, (∀ q < w.store.heap.next, execV o1 v q = Function.update v (cell nbM [i]) (denseB rM bM mbM alpha momentum [i] v) q) ∧
        execV o1 v lo = mul (v (cell rM [i])) (v alpha) := by
      intro v
      rw [ho1]
      simp only [execV_asg, execV_nil, Rhs.ev, List.map_cons, List.map_nil, denseB]
      simp only [Function.update_apply]
      refine ⟨fun q hq => ?_, ?_⟩
      · simp [show cell bM [i] ≠ lo + 1 by omega, show cell bM [i] ≠ lo by omega, show cell mbM [i] ≠ lo by omega, show momentum ≠ lo by omega,
          show q ≠ lo + 1 by omega, show q ≠ lo by omega]
      · simp [show lo ≠ cell nbM [i] by omega]
    have key : ∀ v, (∀ q < w.store.heap.next, execV (o1 ++ o2) v q = (allIdx [inputs]).foldl (fun v k => Function.update v (cell nwM (i :: k)) (denseW rM wM mwM inM alpha momentum (i :: k) v))
        (Function.update v (cell nbM [i]) (denseB rM bM mbM alpha momentum [i] v)) q) := by
      intro v q hq
      rw [execV_append, A.eff _ q (by omega)]
      have R := List.foldl_rel (l := allIdx [inputs]) (r := fun a c : Ptr → T => (∀ q < w.store.heap.next, a q = c q) ∧ a lo = mul (c (cell rM [i])) (c alpha))
        (f := fun v k => Function.update v (cell nwM (i :: k)) (sum1 [v (cell wM (i :: k)), mul (v (cell mwM (i :: k))) (v momentum),
          mul (v lo) (v (inM.ops.getD (k.getD 0 0) 0))]))
        (g := fun v k => Function.update v (cell nwM (i :: k)) (denseW rM wM mwM inM alpha momentum (i :: k) v))
        (a := execV o1 v) (b := Function.update v (cell nbM [i]) (denseB rM bM mbM alpha momentum [i] v)) ?_ ?_
      · exact R.1 q hq
      · refine ⟨(e1 v).1, ?_⟩
        have d1 := dis (cell nbM [i]) (Or.inr (cell_mem rnb.good (i1 snb)))
        rw [(e1 v).2, Function.update_of_ne (fun h => d1.1 (by rw [← h]; exact cell_mem rr.good (i1 sr))), Function.update_of_ne (fun h => d1.2 h.symm)]
      · intro k hk c c' hc
        have hk := mem_allIdx.1 hk
        obtain ⟨j, hj, rfl⟩ : ∃ j, j < inputs ∧ k = [j] := by
          have hl := inRange_length hk
          match k, hl with
          | [j], _ =>
            simp only [InRange, List.forall₂_cons, List.forall₂_nil_left_iff] at hk
            exact ⟨j, hk.1, rfl⟩
        obtain ⟨_, cw⟩ := rw.good.valid _ (cell_mem rw.good (i2 sw j hj))
        obtain ⟨_, cmw⟩ := rmw.good.valid _ (cell_mem rmw.good (i2 smw j hj))
        obtain ⟨_, cnw⟩ := rnw.good.valid _ (cell_mem rnw.good (i2 snw j hj))
        obtain ⟨_, _, ci⟩ := getD_valid ri.good (i := j) (by rw [si]; exact hj)
        have d1 := dis (cell nwM [i, j]) (Or.inl (cell_mem rnw.good (i2 snw j hj)))
        have ew : sum1 [c (cell wM [i, j]), mul (c (cell mwM [i, j])) (c momentum), mul (c lo) (c (inM.ops.getD j 0))] =
            denseW rM wM mwM inM alpha momentum [i, j] c' := by
          unfold denseW
          simp only [List.getD_cons_zero, List.getD_cons_succ]
          rw [hc.1 _ cw, hc.1 _ cmw, hc.1 _ hm.2, hc.1 _ ci, hc.2]
        refine ⟨fun q hq => ?_, ?_⟩
        · simp only [Function.update_apply, hc.1 q hq]
          split
          · exact ew
          · rfl
        · rw [Function.update_of_ne (by omega), Function.update_of_ne (fun h => d1.1 (by rw [← h]; exact cell_mem rr.good (i1 sr))), Function.update_of_ne (fun h => d1.2 h.symm), hc.2]
    refine ⟨by omega, fun q hq => ?_, fun hs o ho => ?_, fun v => key v, fun v v' hv q hq => ?_⟩
    · rw [dsts_append, List.mem_append] at hq
      rcases hq with hq | hq
      · rw [ho1] at hq
        simp only [dsts_asg, dsts_nil, List.mem_cons, List.not_mem_nil, or_false] at hq
        rcases hq with rfl | rfl | rfl
        · left; omega
        · left; omega
        · exact Or.inr (Or.inr (cell_mem rnb.good (i1 snb)))
      · rcases A.dst q hq with h | h
        · left; omega
        · exact Or.inr h
    · rcases List.mem_append.1 ho with ho | ho
      · rw [ho1] at ho
        simp only [List.mem_cons, List.not_mem_nil, or_false] at ho
        rcases ho with rfl | rfl | rfl
        · exact ⟨by omega, by simp only [Rhs.reads, List.mem_cons, List.not_mem_nil, or_false, forall_eq_or_imp, forall_eq]; omega, trivial, trivial⟩
        · exact ⟨by omega, by simp only [Rhs.reads, List.mem_cons, List.not_mem_nil, or_false, forall_eq_or_imp, forall_eq]; omega, trivial, trivial⟩
        · exact ⟨pn, by simp only [Rhs.reads, List.mem_cons, List.not_mem_nil, or_false, forall_eq_or_imp, forall_eq]; omega, by simp [ArgsNonempty], trivial⟩
      · exact A.fine hs o ho
    · refine List.foldl_rel (l := allIdx [inputs]) (r := fun a c : Ptr → T => ∀ q < w.store.heap.next, a q = c q) ?_ ?_ q hq
      · intro q hq
        simp only [Function.update_apply, denseB, hv q hq, hv _ cb, hv _ cm, hv _ cr, hv _ ha.2, hv _ hm.2]
      · intro k hk c c' hc q hq
        have hk := mem_allIdx.1 hk
        obtain ⟨j, hj, rfl⟩ : ∃ j, j < inputs ∧ k = [j] := by
          have hl := inRange_length hk
          match k, hl with
          | [j], _ =>
            simp only [InRange, List.forall₂_cons, List.forall₂_nil_left_iff] at hk
            exact ⟨j, hk.1, rfl⟩
        obtain ⟨_, cw⟩ := rw.good.valid _ (cell_mem rw.good (i2 sw j hj))
        obtain ⟨_, cmw⟩ := rmw.good.valid _ (cell_mem rmw.good (i2 smw j hj))
        obtain ⟨_, _, ci⟩ := getD_valid ri.good (i := j) (by rw [si]; exact hj)
        simp only [Function.update_apply, denseW, List.getD_cons_zero, List.getD_cons_succ, hc q hq, hc _ cw, hc _ cmw, hc _ cr, hc _ ha.2, hc _ hm.2, hc _ ci]

theorem opsD_inj {h : Heap T} {m : Mat} (g : GoodMat h m) (nd : m.ops.Nodup) {i j : Nat} (hi : i < size m.shape) (hj : j < size m.shape)
    (e : m.ops.getD i 0 = m.ops.getD j 0) : i = j := by
  have h1 : i < m.ops.length := by rw [g.len]; exact hi
  have h2 : j < m.ops.length := by rw [g.len]; exact hj
  rw [List.getD_eq_getElem _ _ h1, List.getD_eq_getElem _ _ h2, nd.getElem_inj_iff] at e
  exact e

theorem densePre_fold {hp : Heap T} {rM wM derM pM : Mat} {outputs inputs : Nat} (gr : GoodMat hp rM) (gw : GoodMat hp wM) (gd : GoodMat hp derM)
    (gp : GoodMat hp pM) (sr : rM.shape = [outputs]) (sw : wM.shape = [outputs, inputs]) (sd : size derM.shape = inputs) (sp : size pM.shape = inputs)
    (nd : pM.ops.Nodup) (dis : ∀ q ∈ pM.ops, q ∉ rM.ops ∧ q ∉ wM.ops ∧ q ∉ derM.ops) (v : Ptr → T) :
    (∀ q, q ∉ pM.ops → (List.range inputs).foldl (fun v i => Function.update v (pM.ops.getD i 0) (densePreE rM wM derM pM outputs i v)) v q = v q) ∧
    ∀ i < inputs, (List.range inputs).foldl (fun v i => Function.update v (pM.ops.getD i 0) (densePreE rM wM derM pM outputs i v)) v (pM.ops.getD i 0) =
      densePreE rM wM derM pM outputs i v := by
  obtain ⟨k1, k2⟩ := foldl_own (l := List.range inputs) (F := fun i v => Function.update v (pM.ops.getD i 0) (densePreE rM wM derM pM outputs i v))
    (t := fun i q => q = pM.ops.getD i 0)
    (fun i _ v q hq => Function.update_of_ne hq _ _)
    (by
      have : (List.range inputs).Pairwise fun i j => i ≠ j := List.nodup_range
      refine this.imp_of_mem fun hi hj hne q h1 h2 => hne ?_
      exact opsD_inj gp nd (by rw [sp]; exact List.mem_range.1 hi) (by rw [sp]; exact List.mem_range.1 hj) (h1.symm.trans h2))
    (fun i hi v v' hv q hq => by
      have hi := List.mem_range.1 hi
      subst hq
      have ag : ∀ q, (q ∈ pM.ops → q = pM.ops.getD i 0) → v q = v' q := fun q h => hv q fun j hj e =>
        h (by rw [e]; exact (getD_valid gp (by rw [sp]; exact List.mem_range.1 hj)).1)
      rw [Function.update_self, Function.update_self]
      unfold densePreE
      rw [ag _ fun _ => rfl, ag (derM.ops.getD i 0) fun h => absurd (getD_valid gd (by rw [sd]; exact hi)).1 (dis _ h).2.2]
      congr 3
      refine List.map_congr_left fun j hj => ?_
      have hj := List.mem_range.1 hj
      rw [ag (cell rM [j]) fun h => absurd (cell_mem gr (by rw [sr]; exact .cons hj .nil)) (dis _ h).1,
        ag (cell wM [j, i]) fun h => absurd (cell_mem gw (by rw [sw]; exact .cons hj (.cons hi .nil))) (dis _ h).2.1]) v
  refine ⟨fun q hq => k1 q fun i hi e => hq ?_, fun i hi => ?_⟩
  · rw [e]; exact (getD_valid gp (by rw [sp]; exact List.mem_range.1 hi)).1
  · rw [k2 i (List.mem_range.2 hi) _ rfl, Function.update_self]

theorem denseUpdate_fold {hp : Heap T} {rM wM bM nwM mwM nbM mbM inM : Mat} {outputs inputs : Nat} {alpha momentum : Ptr} (gr : GoodMat hp rM)
    (gw : GoodMat hp wM) (gb : GoodMat hp bM) (gnw : GoodMat hp nwM) (gmw : GoodMat hp mwM) (gnb : GoodMat hp nbM) (gmb : GoodMat hp mbM) (gi : GoodMat hp inM)
    (sr : rM.shape = [outputs]) (sw : wM.shape = [outputs, inputs]) (sb : bM.shape = [outputs]) (snw : nwM.shape = [outputs, inputs])
    (smw : mwM.shape = [outputs, inputs]) (snb : nbM.shape = [outputs]) (smb : mbM.shape = [outputs]) (si : size inM.shape = inputs)
    (nd1 : nwM.ops.Nodup) (nd2 : nbM.ops.Nodup) (dis : ∀ q, q ∈ nwM.ops → q ∉ nbM.ops)
    (dis' : ∀ q, q ∈ nwM.ops ∨ q ∈ nbM.ops → q ∉ rM.ops ∧ q ∉ wM.ops ∧ q ∉ bM.ops ∧ q ∉ mwM.ops ∧ q ∉ mbM.ops ∧ q ∉ inM.ops ∧ q ≠ alpha ∧ q ≠ momentum)
    (v : Ptr → T) (F : Nat → (Ptr → T) → Ptr → T) (hF : F = fun i v => (allIdx [inputs]).foldl (fun v k => Function.update v (cell nwM (i :: k)) (denseW rM wM mwM inM alpha momentum (i :: k) v))
        (Function.update v (cell nbM [i]) (denseB rM bM mbM alpha momentum [i] v))) :
    (∀ q, q ∉ nwM.ops → q ∉ nbM.ops → (List.range outputs).foldl (fun v i => F i v) v q = v q) ∧
    (∀ k, InRange nwM.shape k → (List.range outputs).foldl (fun v i => F i v) v (cell nwM k) = denseW rM wM mwM inM alpha momentum k v) ∧
    ∀ k, InRange nbM.shape k → (List.range outputs).foldl (fun v i => F i v) v (cell nbM k) = denseB rM bM mbM alpha momentum k v := by
  have i1 : ∀ {m : Mat}, m.shape = [outputs] → ∀ i < outputs, InRange m.shape [i] := fun h i hi => by rw [h]; exact .cons hi .nil
  have i2 : ∀ {m : Mat}, m.shape = [outputs, inputs] → ∀ i < outputs, ∀ j < inputs, InRange m.shape [i, j] := fun h i hi j hj => by
    rw [h]; exact .cons hi (.cons hj .nil)
  have d1 : ∀ k, InRange [inputs] k → ∃ j, j < inputs ∧ k = [j] := fun k hk => by
    have hl := inRange_length hk
    match k, hl with
    | [j], _ =>
      simp only [InRange, List.forall₂_cons, List.forall₂_nil_left_iff] at hk
      exact ⟨j, hk.1, rfl⟩
  have aw : ∀ i < outputs, ∀ j < inputs, ∀ v v' : Ptr → T, (∀ q, q ∉ nwM.ops → q ∉ nbM.ops → v q = v' q) →
      denseW rM wM mwM inM alpha momentum [i, j] v = denseW rM wM mwM inM alpha momentum [i, j] v' := by
    intro i hi j hj v v' hv
    have ag : ∀ q, (q ∈ nwM.ops ∨ q ∈ nbM.ops → False) → v q = v' q := fun q h => hv q (fun a => h (Or.inl a)) fun a => h (Or.inr a)
    unfold denseW
    simp only [List.getD_cons_zero, List.getD_cons_succ]
    rw [ag _ fun h => (dis' _ h).2.1 (cell_mem gw (i2 sw i hi j hj)), ag _ fun h => (dis' _ h).2.2.2.1 (cell_mem gmw (i2 smw i hi j hj)),
      ag momentum fun h => (dis' _ h).2.2.2.2.2.2.2 rfl, ag _ fun h => (dis' _ h).1 (cell_mem gr (i1 sr i hi)),
      ag alpha fun h => (dis' _ h).2.2.2.2.2.2.1 rfl, ag _ fun h => (dis' _ h).2.2.2.2.2.1 (getD_valid gi (by rw [si]; exact hj)).1]
  have ab : ∀ i < outputs, ∀ v v' : Ptr → T, (∀ q, q ∉ nwM.ops → q ∉ nbM.ops → v q = v' q) →
      denseB rM bM mbM alpha momentum [i] v = denseB rM bM mbM alpha momentum [i] v' := by
    intro i hi v v' hv
    have ag : ∀ q, (q ∈ nwM.ops ∨ q ∈ nbM.ops → False) → v q = v' q := fun q h => hv q (fun a => h (Or.inl a)) fun a => h (Or.inr a)
    unfold denseB
    rw [ag _ fun h => (dis' _ h).2.2.1 (cell_mem gb (i1 sb i hi)), ag _ fun h => (dis' _ h).2.2.2.2.1 (cell_mem gmb (i1 smb i hi)),
      ag momentum fun h => (dis' _ h).2.2.2.2.2.2.2 rfl, ag _ fun h => (dis' _ h).1 (cell_mem gr (i1 sr i hi)), ag alpha fun h => (dis' _ h).2.2.2.2.2.2.1 rfl]
  -- one neuron
  have one : ∀ i < outputs, ∀ v, (∀ q, (∀ j < inputs, q ≠ cell nwM [i, j]) → q ≠ cell nbM [i] → F i v q = v q) ∧
      (∀ j < inputs, F i v (cell nwM [i, j]) = denseW rM wM mwM inM alpha momentum [i, j] v) ∧
      F i v (cell nbM [i]) = denseB rM bM mbM alpha momentum [i] v := by
    intro i hi v
    obtain ⟨k1, k2⟩ := foldl_own (l := allIdx [inputs]) (F := fun k v => Function.update v (cell nwM (i :: k)) (denseW rM wM mwM inM alpha momentum (i :: k) v))
      (t := fun k q => q = cell nwM (i :: k)) (fun k _ v q hq => Function.update_of_ne hq _ _)
      (by
        have : (allIdx [inputs]).Pairwise fun i j => i ≠ j := nodup_allIdx _
        refine this.imp_of_mem fun {a c} ha hc hne q h1 h2 => hne ?_
        obtain ⟨j, hj, rfl⟩ := d1 a (mem_allIdx.1 ha)
        obtain ⟨j', hj', rfl⟩ := d1 c (mem_allIdx.1 hc)
        have := cell_inj gnw nd1 (i2 snw i hi j hj) (i2 snw i hi j' hj') (h1.symm.trans h2)
        injection this)
      (fun k hk u u' hu q hq => by
        obtain ⟨j, hj, rfl⟩ := d1 k (mem_allIdx.1 hk)
        subst hq
        rw [Function.update_self, Function.update_self]
        refine aw i hi j hj u u' fun q h1 _ => hu q fun k' hk' e => ?_
        obtain ⟨j', hj', rfl⟩ := d1 k' (mem_allIdx.1 hk')
        exact absurd (e ▸ cell_mem gnw (i2 snw i hi j' hj')) h1)
      (Function.update v (cell nbM [i]) (denseB rM bM mbM alpha momentum [i] v))
    rw [hF]
    dsimp only
    have nb := cell_mem gnb (i1 snb i hi)
    refine ⟨fun q h1 h2 => ?_, fun j hj => ?_, ?_⟩
    · rw [k1 q fun k hk e => ?_, Function.update_of_ne h2]
      obtain ⟨j, hj, rfl⟩ := d1 k (mem_allIdx.1 hk)
      exact h1 j hj e
    · rw [k2 [j] (mem_allIdx.2 (.cons hj .nil)) _ rfl, Function.update_self]
      exact aw i hi j hj _ _ fun q _ h2 => Function.update_of_ne (fun (e : q = _) => h2 (e ▸ nb)) _ _
    · rw [k1 _ fun k hk e => ?_, Function.update_self]
      obtain ⟨j, hj, rfl⟩ := d1 k (mem_allIdx.1 hk)
      exact dis _ (cell_mem gnw (i2 snw i hi j hj)) (e ▸ nb)
  have tin : ∀ i < outputs, ∀ q, ((∃ j < inputs, q = cell nwM [i, j]) ∨ q = cell nbM [i]) → q ∈ nwM.ops ∨ q ∈ nbM.ops := by
    rintro i hi q (⟨j, hj, rfl⟩ | rfl)
    · exact Or.inl (cell_mem gnw (i2 snw i hi j hj))
    · exact Or.inr (cell_mem gnb (i1 snb i hi))
  obtain ⟨k1, k2⟩ := foldl_own (l := List.range outputs) (F := F) (t := fun i q => (∃ j < inputs, q = cell nwM [i, j]) ∨ q = cell nbM [i])
    (fun i hi v q hq => (one i (List.mem_range.1 hi) v).1 q (fun j hj e => hq (Or.inl ⟨j, hj, e⟩)) fun e => hq (Or.inr e))
    (by
      have : (List.range outputs).Pairwise fun i j => i ≠ j := List.nodup_range
      refine this.imp_of_mem fun {a c} ha hc hne q h1 h2 => hne ?_
      have ha := List.mem_range.1 ha
      have hc := List.mem_range.1 hc
      rcases h1 with ⟨j, hj, e1⟩ | e1
      · rcases h2 with ⟨j', hj', e2⟩ | e2
        · have := cell_inj gnw nd1 (i2 snw a ha j hj) (i2 snw c hc j' hj') (e1.symm.trans e2)
          injection this
        · exact absurd (e2 ▸ cell_mem gnb (i1 snb c hc)) (dis _ (e1 ▸ cell_mem gnw (i2 snw a ha j hj)))
      · rcases h2 with ⟨j', hj', e2⟩ | e2
        · exact absurd (e1 ▸ cell_mem gnb (i1 snb a ha)) (dis _ (e2 ▸ cell_mem gnw (i2 snw c hc j' hj')))
        · have := cell_inj gnb nd2 (i1 snb a ha) (i1 snb c hc) (e1.symm.trans e2)
          injection this)
    (fun i hi u u' hu q hq => by
      have hi := List.mem_range.1 hi
      have ag : ∀ q, q ∉ nwM.ops → q ∉ nbM.ops → u q = u' q := fun q h1 h2 => hu q fun i' hi' ht => by
        rcases tin i' (List.mem_range.1 hi') q ht with h | h
        · exact absurd h h1
        · exact absurd h h2
      rcases hq with ⟨j, hj, rfl⟩ | rfl
      · rw [(one i hi u).2.1 j hj, (one i hi u').2.1 j hj]
        exact aw i hi j hj u u' ag
      · rw [(one i hi u).2.2, (one i hi u').2.2]
        exact ab i hi u u' ag) v
  refine ⟨fun q h1 h2 => k1 q fun i hi ht => ?_, fun k hk => ?_, fun k hk => ?_⟩
  · rcases tin i (List.mem_range.1 hi) q ht with h | h
    · exact h1 h
    · exact h2 h
  · rw [snw] at hk
    have hl := inRange_length hk
    match k, hl with
    | [i, j], _ =>
      simp only [InRange, List.forall₂_cons, List.forall₂_nil_left_iff] at hk
      rw [k2 i (List.mem_range.2 hk.1) _ (Or.inl ⟨j, hk.2.1, rfl⟩)]
      exact (one i hk.1 v).2.1 j hk.2.1
  · rw [snb] at hk
    have hl := inRange_length hk
    match k, hl with
    | [i], _ =>
      simp only [InRange, List.forall₂_cons, List.forall₂_nil_left_iff] at hk
      rw [k2 i (List.mem_range.2 hk.1) _ (Or.inr rfl)]
      exact (one i hk.1 v).2.2

theorem bpGood_dense (n : Nat) (a : Activation T) : BPGood (.dense n a : LSpec T) := by
  intro w fuel b l p P X alpha momentum E dsafe H
  obtain ⟨wn, bn, wM, bM, hw, hb, hps, rw0, rb0, sw, sb⟩ := H.params (sw := [n, size P.oM.shape]) (sb := [n]) rfl
  obtain ⟨I, hI⟩ : ∃ I, I = size P.oM.shape := ⟨_, rfl⟩
  rw [← hI] at sw
  have hso : X.oM.shape = [n] := H.sout
  show wp True (LayerM.denseBP fuel l alpha momentum) _ w
  unfold LayerM.denseBP
  refine wp_bind (wp_layer (wp_bind (wp_deref H.step.input (wp_bind (wp_mat ?_)))))
  have e1 : (w.store.nodes P.out).mat.getSize = I := by rw [H.rin.mat, hI]; simp [Mat.getSize, H.rin.good.len]
  rw [e1]
  refine wp_bind (wp_deref H.output (wp_bind (wp_mat ?_)))
  have e2 : (w.store.nodes X.out).mat.getSize = n := by rw [H.rout.mat]; simp [Mat.getSize, H.rout.good.len, hso, size]
  rw [e2]
  refine wp_bind (wp_deref hw (wp_bind (wp_mat ?_)))
  rw [rw0.mat, sw]
  refine wp_zmod (f := fun n x => { x with nWeights := some n }) H.pos fun w1 nwM g1 l1 j1 r1 s1 nd1 f1 => ?_
  have b1 := g1.grow.next
  refine wp_zmod (f := fun n x => { x with mWeights := some n }) (by have := H.pos; omega) fun w2 mwM g2 l2 j2 r2 s2 nd2 f2 => ?_
  have b2 := g2.grow.next
  have G2 : Lay (· = l) [] w w2 := by simpa using g1.trans g2
  refine wp_bind (wp_deref hb (wp_bind (wp_mat ?_)))
  rw [(rb0.grow G2.grow).mat, sb]
  refine wp_zmod (f := fun n x => { x with nBias := some n }) (by have := H.pos; omega) fun w3 nbM g3 l3 j3 r3 s3 nd3 f3 => ?_
  have b3 := g3.grow.next
  refine wp_zmod (f := fun n x => { x with mBias := some n }) (by have := H.pos; omega) fun w4 mbM g4 l4 j4 r4 s4 nd4 f4 => ?_
  have b4 := g4.grow.next
  have G34 : Lay (· = l) [] w2 w4 := by simpa using g3.trans g4
  have G14 : Lay (· = l) [] w1 w4 := by simpa using g2.trans G34
  have G4 : Lay (· = l) [] w w4 := by simpa using g1.trans G14
  have v4 : w4.store.heap.val (w.layers l).ref = w.store.heap.val (w.layers l).ref := G4.val H.ref.2.1
  refine wp_scaled (by have := H.pos; omega) H.dif (H.rdif.grow G4.grow) ⟨H.ref.1, by have := H.ref.2.1; omega⟩ fun w5 dn rM o5 S => ?_
  rw [v4] at S
  simp only [H.pre]
  refine wp_bind ?_
  refine wp_mono (H.der rfl w5 o5 (by simpa using G4.grow.trans (S.grow (· = l)))) fun d w6 D => ?_
  obtain ⟨of, derM, Fr⟩ := front_of H G4 S D
  have b6 := Fr.grow.next
  have lp : ∀ j, ∃ x, w6.layers j = { w4.layers j with der := x } := Fr.layers
  have j4' : ∀ j, j ≠ l → w4.layers j = w.layers j := fun j hj => by rw [j4 j hj, j3 j hj, j2 j hj, j1 j hj]
  have pl : p ≠ l := by have := H.lt; omega
  have l6p : (w6.layers p).pre = (w.layers p).pre ∧ (w6.layers p).kind = (w.layers p).kind ∧ (w6.layers p).dif = (w.layers p).dif := by
    obtain ⟨x, hx⟩ := lp p
    rw [hx, j4' p pl]; exact ⟨rfl, rfl, rfl⟩
  refine wp_bind (wp_getDif H.fpos (by rw [l6p.1, l6p.2.1]; exact H.pnot) (by rw [l6p.2.2]; exact H.pdif) ?_)
  refine wp_bind (wp_deref rfl ?_)
  have G46 := (G4.grow.weaken (L' := fun j => b ≤ j ∧ j ≤ l) (C' := fun _ => False) (fun j (hj : j = l) => by have := H.lt; omega) fun _ h => h).trans
    (Fr.grow.weaken (L' := fun j => b ≤ j ∧ j ≤ l) (C' := fun _ => False) (fun j hj => by have := H.lt; omega) fun _ h => h)
  refine wp_bind (wp_buildReady (L := fun _ => False) (H.rpdif.grow G46) fun w7 nops hn g7 l7 n7 e7 => ?_)
  have b7 : w7.store.heap.next = w6.store.heap.next := by rw [e7]
  have G7 := G46.trans (g7.grow.weaken (L' := fun j => b ≤ j ∧ j ≤ l) (C' := fun _ => False) (fun _ h => h.elim) fun _ h => h)
  have rr7 := Fr.rr.grow g7.grow
  have rd7 := Fr.rd.grow g7.grow
  have rw7 := rw0.grow G7
  have rb7 := rb0.grow G7
  have rp7 := H.rpdif.grow G7
  have ri7 := H.rin.grow G7
  have sr : rM.shape = [n] := by rw [Fr.rshape, H.sdif, hso]
  have sd : size derM.shape = I := by rw [Fr.dshape, hI]
  have sp : size P.dM.shape = I := by rw [H.spdif, hI]
  refine wp_bind (wp_effect (base := w7.store.heap.next) (W := (· ∈ P.dM.ops)) (safe := 0 < n ∨ I = 0)
    (F := fun v => (List.range I).foldl (fun v i => Function.update v (P.dM.ops.getD i 0) (densePreE rM wM derM P.dM n i v)) v)
    (Effect.each _ (fun i hi lo hlo => ?_) _ le_rfl) fun w8 o8 g8 l8 A8 => ?_)
  · have hi := List.mem_range.1 hi
    obtain ⟨hi', ops, em, A⟩ := densePre_effect rr7 rw7 rd7 rp7 sr sw sd sp i hi lo hlo
    exact ⟨hi', ops, em, A.le, A.dst, fun hs => A.fine (by omega), A.eff, A.loc⟩
  have b8 := (g8 fun _ => False).grow.next
  have G8' := g8 fun j => b ≤ j ∧ j ≤ l
  have G8 := G7.trans G8'.grow
  have G48 : Grow (fun j => b ≤ j ∧ j ≤ l) (fun _ => False) (of ++ nops ++ o8) w4 w8 :=
    ((Fr.grow.weaken (fun j hj => by have := H.lt; omega) fun _ h => h).trans (g7.grow.weaken (fun _ h => h.elim) fun _ h => h)).trans G8'.grow
  have wk : ∀ {u u' : World T} {o : List (Op T)}, Lay (· = l) o u u' → Grow (fun j => b ≤ j ∧ j ≤ l) (fun _ => False) o u u' := fun g =>
    g.grow.weaken (fun j (hj : j = l) => by have := H.lt; omega) fun _ h => h
  have rnw8 := (r1.grow (wk G14)).grow G48
  have rmw8 := (r2.grow (wk G34)).grow G48
  have rnb8 := (r3.grow (wk g4)).grow G48
  have rmb8 := r4.grow G48
  have rr8 := rr7.grow G8'.grow
  have disr : ∀ q ∈ rM.ops, w4.store.heap.next ≤ q ∨ q < w.store.heap.next := fun q hq => by
    rcases Fr.rcell q hq with h | h
    · exact Or.inl h.1
    · exact Or.inr (H.rdif.good.valid q h).2
  have old : ∀ {m : Mat} {k : Nat}, Ready w k m → ∀ q ∈ m.ops, q < w.store.heap.next := fun r q hq => (r.good.valid q hq).2
  obtain ⟨ha0, ha1, ha2, hm0, hm1, hm2⟩ := H.rates
  have dis1 : ∀ q, q ∈ nwM.ops → q ∉ nbM.ops := fun q h1 h2 => by have := f1 q h1; have := f3 q h2; omega
  have dis2 : ∀ q, q ∈ nwM.ops ∨ q ∈ nbM.ops → q ∉ rM.ops ∧ q ∉ wM.ops ∧ q ∉ bM.ops ∧ q ∉ mwM.ops ∧ q ∉ mbM.ops ∧ q ∉ P.oM.ops ∧ q ≠ alpha ∧ q ≠ momentum := by
    intro q hq
    have hr : w.store.heap.next ≤ q ∧ q < w4.store.heap.next := by
      rcases hq with h | h
      · have := f1 q h; omega
      · have := f3 q h; omega
    refine ⟨fun h => ?_, fun h => ?_, fun h => ?_, fun h => ?_, fun h => ?_, fun h => ?_, by omega, by omega⟩
    · have := disr q h; omega
    · have := old rw0 q h; omega
    · have := old rb0 q h; omega
    · have := f2 q h
      rcases hq with h | h
      · have := f1 q h; omega
      · have := f3 q h; omega
    · have := f4 q h
      rcases hq with h | h
      · have := f1 q h; omega
      · have := f3 q h; omega
    · have := old H.rin q h; omega
  refine wp_effect (base := w8.store.heap.next) (W := fun q => q ∈ nwM.ops ∨ q ∈ nbM.ops) (safe := True)
    (Effect.each _ (fun i hi => denseUpdate_effect rr8 (rw7.grow G8'.grow) (rb7.grow G8'.grow) rnw8 rmw8 rnb8 rmb8 (ri7.grow G8'.grow) sr sw sb s1 s2 s3 s4 hI.symm
      ⟨ha0, by omega⟩ ⟨hm0, by omega⟩ (fun q hq => ⟨(dis2 q hq).1, (dis2 q hq).2.2.2.2.2.2.1⟩) i (List.mem_range.1 hi)) _ le_rfl) fun w9 o9 g9 l9 A9 => ?_
  have b9 := (g9 fun _ => False).grow.next
  have G9' := (g9 fun j => b ≤ j ∧ j ≤ l).grow
  have G9 := G8.trans G9'
  rw [List.nil_append] at G9
  -- the layers
  have lay : ∀ j, ∃ x, w9.layers j = { w4.layers j with der := x } := fun j => by rw [l9, l8, l7]; exact Fr.layers j
  have L4 : w4.layers l = { w.layers l with nWeights := some w.nodeNext, mWeights := some w1.nodeNext, nBias := some w2.nodeNext, mBias := some w3.nodeNext } := by
    rw [l4, l3, l2, l1]
  have derk : ∀ j, l ≤ j → (w9.layers j).der = (w4.layers j).der := fun j hj => by
    rw [l9, l8, l7, Fr.grow.layers j (by have := H.lt; omega)]
  refine ⟨of ++ nops ++ o8 ++ o9, [nwM, nbM], [], ⟨G9, fun j => ?_, fun j => ?_, fun j hj => ?_, fun j hj => ?_, fun _ => ?_, ?_, fun m hm => ?_, by simp, rfl, fun q hq => ?_,
    fun hs hd hr o ho => ?_, ?_⟩⟩
  · obtain ⟨x, hx⟩ := lay j
    rw [hx]
    by_cases hj : j = l
    · subst hj; rw [L4]; rfl
    · rw [j4' j hj]; rfl
  · obtain ⟨x, hx⟩ := lay j
    rw [hx]
    by_cases hj : j = l
    · subst hj; rw [L4]; exact ⟨rfl, rfl⟩
    · rw [j4' j hj]; exact ⟨rfl, rfl⟩
  · rcases hj with hj | hj
    · cases hj
    · rw [derk j hj]
      by_cases hj : j = l
      · subst hj; rw [L4]
      · rw [j4' j hj]
  · rcases hj with hj | hj
    · cases hj
    · obtain ⟨x, hx⟩ := lay j
      rw [hx, j4' j hj]; exact ⟨rfl, rfl⟩
  · obtain ⟨x, hx⟩ := lay l
    exact ⟨_, _, nwM, nbM, rfl, by rw [hx, L4], by rw [hx, L4], rnw8.grow G9', rnb8.grow G9'⟩
  · show [nwM.shape, nbM.shape] = _
    rw [s1, s3, hI]; rfl
  · intro q hq
    simp only [List.mem_cons, List.not_mem_nil, or_false] at hm
    rcases hm with rfl | rfl
    · have := f1 q hq; omega
    · have := f3 q hq; omega
  · rw [dsts_append, List.mem_append, dsts_append, List.mem_append, dsts_append, hn.dsts, List.append_nil] at hq
    rcases hq with (hq | hq) | hq
    · have := Fr.dst q hq; left; omega
    · rcases A8.dst q hq with h | h
      · left; omega
      · exact Or.inr h
    · rcases A9.dst q hq with h | h | h
      · left; omega
      · have := f1 q h; left; omega
      · have := f3 q h; left; omega
  · rw [List.mem_append, List.mem_append, List.mem_append] at ho
    rcases ho with ((ho | ho) | ho) | ho
    · exact Fr.fine hd hr o ho
    · exact hn.fine o ho
    · exact A8.fine (by rw [hI]; exact hs) o ho
    · exact A9.fine trivial o ho
  · intro h h' pv mv x dd D al mu hnx hk V he
    have hmv := V.mom
    cases hmv
    have hpar := V.par
    rw [hps] at hpar
    obtain ⟨W, B, rfl⟩ : ∃ W B, pv = [W, B] := by
      have hl := hpar.length_eq
      match pv, hl with
      | [W, B], _ => exact ⟨W, B, rfl⟩
    simp only [List.forall₂_cons, List.forall₂_nil_left_iff, and_true] at hpar
    obtain ⟨HW, HB⟩ := hpar
    rw [List.append_assoc, List.append_assoc] at he
    obtain ⟨h1, he1, he⟩ := exec_append_ok.1 he
    obtain ⟨h2, he2, he⟩ := exec_append_ok.1 he
    rw [hn.exec] at he2
    simp only [Out.ok.injEq, true_and] at he2
    subst he2
    obtain ⟨h3, he3, he4⟩ := exec_append_ok.1 he
    have x1 := exec_frame he1
    have x3 := exec_frame he3
    have x4 := exec_frame he4
    have k1 : Kept w4 w6 of h := Kept.seg (oa := []) (ob := nops ++ o8 ++ o9) (fun q h1 h2 h3 => hk q (by omega) h2 (by simpa using h3)) rfl
      (((g7.grow.weaken (L' := fun j => b ≤ j ∧ j ≤ l) (fun _ h => h.elim) fun _ h => h).trans G8'.grow).trans G9') le_rfl fun q a c _ => ⟨by simp, fun hd => by
        rw [dsts_append, List.mem_append, dsts_append, hn.dsts, List.nil_append] at hd
        rcases hd with hd | hd
        · rcases A8.dst q hd with h | h
          · omega
          · have := old H.rpdif q h; omega
        · rcases A9.dst q hd with h | h | h
          · omega
          · have := f1 q h; omega
          · have := f3 q h; omega⟩
    obtain ⟨Hr, HD⟩ := Fr.run h h1 dd D (by omega) k1 V.rates.2.2 V.dif V.env he1
    obtain ⟨r, hr⟩ : ∃ r, r = shared (w.store.heap.val (w.layers l).ref) dd := ⟨_, rfl⟩
    rw [← hr] at Hr ⊢
    -- what stays in the first part
    have fz1 : ∀ q, q < w4.store.heap.next → h1.val q = h.val q := fun q hq => x1.2 q fun hd => by have := Fr.dst q hd; omega
    have kp1 : ∀ {m : Mat} {k : Nat} {t : STensor T}, Ready w k m → Holds h m t → Holds h1 m t := fun rm Hm =>
      Hm.kept (by rw [x1.1]) fun q hq => fz1 q (by have := old rm q hq; omega)
    have HW1 := kp1 rw0 HW
    have HB1 := kp1 rb0 HB
    have Hi1 := kp1 H.rin V.inp
    have fd := densePre_fold rr7.good rw7.good rd7.good rp7.good sr sw sd sp H.nd (fun q hq => ⟨fun hc => ?_, fun hc => ?_, fun hc => ?_⟩) h1.val
    have fz3 : ∀ q, q < w7.store.heap.next → q ∉ P.dM.ops → h3.val q = h1.val q := fun q hq hd => by rw [A8.run he3 hq, fd.1 q hd]
    have kp3 : ∀ {m : Mat} {t : STensor T}, (∀ q ∈ m.ops, q < w7.store.heap.next ∧ q ∉ P.dM.ops) → Holds h1 m t → Holds h3 m t := fun rm Hm =>
      Hm.kept (by rw [x3.1]) fun q hq => fz3 q (rm q hq).1 (rm q hq).2
    have Hr3 := kp3 (fun q hq => ⟨(rr7.good.valid q hq).2, fun hp => ?_⟩) Hr
    have HW3 := kp3 (fun q hq => ⟨(rw7.good.valid q hq).2, fun hp => (H.sep q hp).2.2.1 wM (by rw [hps]; simp) hq⟩) HW1
    have HB3 := kp3 (fun q hq => ⟨(rb7.good.valid q hq).2, fun hp => (H.sep q hp).2.2.1 bM (by rw [hps]; simp) hq⟩) HB1
    have Hi3 := kp3 (fun q hq => ⟨(ri7.good.valid q hq).2, fun hp => (H.sep q hp).1 hq⟩) Hi1
    have fu := denseUpdate_fold rr8.good (rw7.grow G8'.grow).good (rb7.grow G8'.grow).good rnw8.good rmw8.good rnb8.good rmb8.good (ri7.grow G8'.grow).good sr sw sb s1 s2
      s3 s4 hI.symm nd1 nd3 dis1 dis2 h3.val _ rfl
    have zk : ∀ q, w.store.heap.next ≤ q → q < w4.store.heap.next → q ∉ nwM.ops → q ∉ nbM.ops → h3.val q = zero := by
      intro q hq1 hq2 hq3 hq4
      rw [fz3 q (by omega) (fun hp => by have := old H.rpdif q hp; omega), fz1 q hq2, hk q hq1 (by omega) ?_]
      · have e := G48.trans G9'
        rw [e.val q hq2 fun h => h, G4.zero q hq1 hq2]
      · rw [dsts_append, List.mem_append, dsts_append, List.mem_append, dsts_append, hn.dsts, List.append_nil]
        rintro ((hd | hd) | hd)
        · have := Fr.dst q hd; omega
        · rcases A8.dst q hd with h | h
          · omega
          · have := old H.rpdif q h; omega
        · rcases A9.dst q hd with h | h | h
          · omega
          · exact hq3 h
          · exact hq4 h
    have al3 : h3.val alpha = al := by rw [fz3 _ (by omega) ha2, fz1 _ (by omega)]; exact V.rates.1
    have mu3 : h3.val momentum = mu := by rw [fz3 _ (by omega) hm2, fz1 _ (by omega)]; exact V.rates.2.1
    have eh' : ∀ q, q < w8.store.heap.next → h'.val q = _ := fun q hq => A9.run he4 hq
    have Hsh : P.oM.shape = x.shape := V.inp.shape
    refine ⟨?_, fun _ => ?_, .nil⟩
    · show Holds h' P.dM (denseBack W r x D)
      refine holds_of_cell (H.rpdif.good.mono (by omega)) (by rw [H.spdif, Hsh]; rfl) fun idx hi => ?_
      have hm := cell_mem H.rpdif.good hi
      have hlt := old H.rpdif _ hm
      rw [eh' _ (by omega), fu.1 _ (fun h => by have := f1 _ h; omega) (fun h => by have := f3 _ h; omega), A8.run he3 (by omega)]
      have ho : offset P.dM.shape idx < I := by rw [← sp]; exact offset_lt hi
      have key := fd.2 _ ho
      unfold cell
      rw [key]
      unfold densePreE denseBack
      have hz : h1.val (P.dM.ops.getD (offset P.dM.shape idx) 0) = zero := by rw [fz1 _ (by show cell P.dM idx < _; omega)]; exact V.zero (by simp) _ hm
      rw [hz]
      have er : size r.shape = n := by rw [← Hr.shape, sr]; simp [size]
      dsimp only
      rw [er, getD_holds HD (by rw [sd]; exact ho), ← HD.shape, Fr.dshape, ← H.spdif, unflat_offset hi, ← Hsh, ← H.spdif]
      congr 3
      refine List.map_congr_left fun j hj => ?_
      have hj := List.mem_range.1 hj
      rw [holds_cell Hr (by rw [sr]; exact .cons hj .nil), holds_cell HW1 (by rw [sw]; exact .cons hj (.cons ho .nil))]
    · show List.Forall₂ (Holds h') [nwM, nbM] [newWeights al mu r x W, newBias al mu r B]
      refine .cons ?_ (.cons ?_ .nil)
      · refine holds_of_cell (rnw8.good.mono (by omega)) (by rw [s1, ← sw, HW.shape]; rfl) fun idx hi => ?_
        rw [eh' _ (rnw8.good.valid _ (cell_mem rnw8.good hi)).2, fu.2.1 idx hi]
        have hi' := hi
        rw [s1] at hi'
        have hl := inRange_length hi'
        match idx, hl with
        | [i, j], _ =>
          simp only [InRange, List.forall₂_cons, List.forall₂_nil_left_iff] at hi'
          unfold denseW newWeights
          simp only [List.getD_cons_zero, List.getD_cons_succ]
          rw [holds_cell HW3 (by rw [sw, ← s1]; exact hi), holds_cell Hr3 (by rw [sr]; exact .cons hi'.1 .nil), getD_holds Hi3 (by rw [← hI]; exact hi'.2.1), al3, mu3]
          have hmw := cell_mem rmw8.good (idx := [i, j]) (by rw [s2, ← s1]; exact hi)
          rw [zk _ (by have := f2 _ hmw; omega) (by have := f2 _ hmw; omega) (fun h => by have := f1 _ h; have := f2 _ hmw; omega)
            fun h => by have := f3 _ h; have := f2 _ hmw; omega]
      · refine holds_of_cell (rnb8.good.mono (by omega)) (by rw [s3, ← sb, HB.shape]; rfl) fun idx hi => ?_
        rw [eh' _ (rnb8.good.valid _ (cell_mem rnb8.good hi)).2, fu.2.2 idx hi]
        unfold denseB newBias
        have hmb := cell_mem rmb8.good (idx := idx) (by rw [s4, ← s3]; exact hi)
        rw [holds_cell HB3 (by rw [sb, ← s3]; exact hi), holds_cell Hr3 (by rw [sr, ← s3]; exact hi), al3, mu3]
        rw [zk _ (by have := f4 _ hmb; omega) (by have := f4 _ hmb; omega) (fun h => by have := f1 _ h; have := f4 _ hmb; omega)
            fun h => by have := f3 _ h; have := f4 _ hmb; omega]
    · rcases Fr.rcell q hq with h | h
      · have := old H.rpdif q hp; omega
      · exact H.sepd (by simp) q hp h
    · rcases Fr.rcell q hc with h | h
      · have := old H.rpdif q hq; omega
      · exact H.sepd (by simp) q hq h
    · exact (H.sep q hq).2.2.1 wM (by rw [hps]; simp) hc
    · have := Fr.dcell q hc; have := old H.rpdif q hq; omega

end Godeep
