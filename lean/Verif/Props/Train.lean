import Verif.Lemmas.TrainRun
import Verif.Props.Predict
import Verif.Props.Branch
import Verif.Model.Activation
/-
  C41, C42, C43, C44: training of sequential models of dense layers.
-/
set_option linter.unusedSectionVars false

namespace Godeep.Props
open Godeep Spec GoNum

variable {T : Type} [GoNum T]

theorem prepared (hlaw : eq (add zero one) (zero : T) = false) (hlt : lt one (add zero one : T) = false) {shape : List Nat}
    {ds : List (Nat × Activation T)} (hne : ds ≠ []) (hwid : ∀ e ∈ ds, 0 < e.1) {w0 : World T} (hpos : 0 < w0.store.heap.next) :
    ∃ m w1, compiled shape (denses ds) w0 = .ok m w1 ∧ ∃ d L acts, DNet shape ds m d L acts w0 w1 ∧ ∀ wa, Steps w0 w1 m w1 wa →
      ∃ wb e, NetM.compileBP m wa = .ok () wb ∧ TNet shape ds m d L acts e w0 w1 wa wb := by
  obtain ⟨m, w1, e1, d, L, acts, D⟩ := wp_total (dense_made (shape := shape) (ds := ds) hlaw hlt hpos)
  refine ⟨m, w1, e1, d, L, acts, D, fun wa s => ?_⟩
  obtain ⟨e, wb, e2, N⟩ := D.tnet (List.length_pos_iff.2 hne) hwid (pre_steps D s)
  exact ⟨wb, e, e2, N⟩

theorem samples_kept {shape : List Nat} {ds : List (Nat × Activation T)} {m : Nat} {d : CData T} {L : Nat → DLayer}
    {acts : Nat → Activation T} {e : TData T} {w0 w1 wa wb a : World T} (N : TNet shape ds m d L acts e w0 w1 wa wb)
    {h : Heap T} (c : TCh d e a.store.heap h) (n : Nat) (z : STensor T) (s : Sample w0 w1 wa wb a n z) :
    Sample w0 w1 wa wb (atHeap a h) n z := N.sample s c

/-- C41: A program makes a sequential model of dense layers (of any depth, of any widths but zero) and compiles it;
after any use of it, it calls `CompileBackPropagation`; any uses and trainings follow.  In the state `a` so reached
`TrainOne` with a sample of the right shapes succeeds.  It returns the sum of the distances between the target and
the output.  The weights and biases become those of `trainStep`: the errors are target minus output at the last
layer and the back-propagated sums, with the old weights, elsewhere; a layer that is not trainable keeps its weights.
Nothing else changes: all other tensors keep their values. -/
theorem C41_train_one (hlaw : eq (add zero one) (zero : T) = false) (hlt : lt one (add zero one : T) = false) {shape : List Nat}
    {ds : List (Nat × Activation T)} (hne : ds ≠ []) (hwid : ∀ e ∈ ds, 0 < e.1) {w0 : World T} (hpos : 0 < w0.store.heap.next) :
    ∃ m w1, compiled shape (denses ds) w0 = .ok m w1 ∧ ∀ wa, Steps w0 w1 m w1 wa →
      ∃ wb, NetM.compileBP m wa = .ok () wb ∧ ∀ a, TSteps w0 w1 wa wb m wb a →
        (∃ pv ts, HasParams a m pv ∧ Trainable a m ts ∧ pv.length = ds.length ∧ ts.length = ds.length) ∧
        ∀ tx ty x y alpha momentum pv ts, Sample w0 w1 wa wb a tx x → Sample w0 w1 wa wb a ty y →
          x.shape = shape → y.shape = outShapes (denses ds) shape → HasParams a m pv → Trainable a m ts →
          ∃ b, NetM.trainOne m tx ty alpha momentum a = .ok (absLoss y (netFn (denses ds) pv x)) b ∧
            HasParams b m (trainStep alpha momentum (ds.map Prod.snd) ts pv x y) ∧ Trainable b m ts ∧
            (∀ n z, Sample w0 w1 wa wb a n z → Sample w0 w1 wa wb b n z) ∧ b.layers = a.layers ∧ b.nets = a.nets := by
  obtain ⟨m, w1, e1, d, L, acts, D, H⟩ := prepared (shape := shape) hlaw hlt hne hwid hpos
  refine ⟨m, w1, e1, fun wa s => ?_⟩
  obtain ⟨wb, e, e2, N⟩ := H wa s
  refine ⟨wb, e2, fun a hs => ?_⟩
  have A := tlive_steps N hs
  refine ⟨?_, fun tx ty x y alpha momentum pv ts sx sy hx hy hp ht => ?_⟩
  · obtain ⟨pv, hp, hl, _⟩ := A.live.someParams N.net.made
    exact ⟨pv, _, hp, (A.flags N).2 rfl, by rw [hl, List.length_map], by simp⟩
  · obtain ⟨h', r1, r2, r3⟩ := N.trainOne A sx sy hx hy alpha momentum hp
    rw [A.flags N] at ht
    subst ht
    exact ⟨_, r1, r3, ((A.change N r2).flags N).2 rfl, samples_kept N r2, rfl, rfl⟩

/-- C41: samples of wrong shapes are rejected, the weights and all other tensors keep their values -/
theorem C41_rejected (hlaw : eq (add zero one) (zero : T) = false) (hlt : lt one (add zero one : T) = false) {shape : List Nat}
    {ds : List (Nat × Activation T)} (hne : ds ≠ []) (hwid : ∀ e ∈ ds, 0 < e.1) {w0 : World T} (hpos : 0 < w0.store.heap.next) :
    ∃ m w1, compiled shape (denses ds) w0 = .ok m w1 ∧ ∀ wa, Steps w0 w1 m w1 wa →
      ∃ wb, NetM.compileBP m wa = .ok () wb ∧ ∀ a, TSteps w0 w1 wa wb m wb a →
        ∀ tx ty x y alpha momentum pv, Sample w0 w1 wa wb a tx x → Sample w0 w1 wa wb a ty y →
          ¬ (x.shape = shape ∧ y.shape = outShapes (denses ds) shape) → HasParams a m pv →
          ∃ er b, NetM.trainOne m tx ty alpha momentum a = .err er b ∧ HasParams b m pv ∧
            (∀ n z, Sample w0 w1 wa wb a n z → Sample w0 w1 wa wb b n z) ∧ b.layers = a.layers ∧ b.nets = a.nets := by
  obtain ⟨m, w1, e1, d, L, acts, D, H⟩ := prepared (shape := shape) hlaw hlt hne hwid hpos
  refine ⟨m, w1, e1, fun wa s => ?_⟩
  obtain ⟨wb, e, e2, N⟩ := H wa s
  refine ⟨wb, e2, fun a hs tx ty x y alpha momentum pv sx sy hsh hp => ?_⟩
  have A := tlive_steps N hs
  obtain ⟨er, h', r1, r2, r3⟩ := N.trainOne_err A sx sy hsh alpha momentum
  exact ⟨er, _, r1, r3 pv hp, samples_kept N r2, rfl, rfl⟩

/-- C41: without a call of `CompileBackPropagation` the first `TrainOne` makes it: the effect is the same.  The samples
may be any tensors that share no element with the model. -/
theorem C41_first (hlaw : eq (add zero one) (zero : T) = false) (hlt : lt one (add zero one : T) = false) {shape : List Nat}
    {ds : List (Nat × Activation T)} (hne : ds ≠ []) (hwid : ∀ e ∈ ds, 0 < e.1) {w0 : World T} (hpos : 0 < w0.store.heap.next) :
    ∃ m w1, compiled shape (denses ds) w0 = .ok m w1 ∧ ∀ wa, Steps w0 w1 m w1 wa →
      ∃ wb, NetM.compileBP m wa = .ok () wb ∧
        (∀ tx ty alpha momentum, NetM.trainOne m tx ty alpha momentum wa = NetM.trainOne m tx ty alpha momentum wb) ∧
        (∀ pv, HasParams wa m pv → HasParams wb m pv) ∧ (∀ ts, Trainable wa m ts → Trainable wb m ts) ∧
        ∀ t x, UserTensor w0 w1 wa t x → Spec.frozen wa.store t → Sample w0 w1 wa wb wb t x := by
  obtain ⟨m, w1, e1, d, L, acts, D, H⟩ := prepared (shape := shape) hlaw hlt hne hwid hpos
  refine ⟨m, w1, e1, fun wa s => ?_⟩
  obtain ⟨wb, e, e2, N⟩ := H wa s
  have B := N.built
  refine ⟨wb, e2, fun tx ty alpha momentum => ?_, fun pv hp => ?_, fun ts ht => ?_, fun t x hu hf => ?_⟩
  · have n1 : (wa.nets m).bp = none := by rw [N.pre.net]; exact D.net
    have n2 : (wb.nets m).bp = some e.bp := (N.start.sameNet N).2.2.2.2.1
    have g : ∀ w : World T, NetM.trainOne m tx ty alpha momentum w = (match (w.nets m).bp with
        | none => NetM.compileBP m
        | some _ => pure () : Run T Unit).bind (fun _ => (do
          let p ← Run.net m
          Run.setValue p.alpha alpha
          Run.setValue p.momentum momentum
          NetM.execFit m tx ty
          let p ← Run.net m
          Run.value p.loss : Run T T)) w := by
      intro w
      show (match (w.nets m).bp with | none => _ | some _ => _ : Run T T) w = _
      cases (w.nets m).bp <;> rfl
    rw [g wa, g wb, n1, n2]
    show (NetM.compileBP m wa).bind _ = _
    rw [e2]
    rfl
  · rw [N.pre.live.hasParams N.net.made] at hp
    rw [N.start.live.hasParams N.net.made]
    have C := N.pre.live.comp N.net.made
    exact forall₂_kept B.wide.ext.next (fun p hp y hy q hq =>
      B.wide.val q (lt_of_lt_of_le (C.stage.par p hp y hy q hq).2.1 C.hi.2)) hp
  · have C := N.pre.live.comp N.net.made
    have hc := C.chain
    have hl := C.last
    rw [List.length_map] at hc hl
    obtain ⟨l, h1, h2⟩ := ht
    rw [hl] at h1; cases h1
    rw [N.start.flags N, h2.unique (trainableOf_chain hc)]
    exact List.map_congr_left fun k _ => (B.train _).symm
  · obtain ⟨_, em⟩ := B.wide.ext.frozen t hu.1 hf
    refine ⟨lt_of_lt_of_le hu.1 B.wide.ext.nodeNext, ?_, fun q hq => ?_⟩
    · rw [em]
      exact hu.2.1.kept B.wide.ext.next fun q hq => B.wide.val q (hu.2.1.valid q hq).2
    · rw [em] at hq
      exact ⟨hu.2.2 q hq, Or.inl (hu.2.1.valid q hq).2⟩

/-- C38, for models that are trained: in any state between trainings `Predict` computes the composition of the layers'
functions with the weights of that state -/
theorem C38_predict_trained (hlaw : eq (add zero one) (zero : T) = false) (hlt : lt one (add zero one : T) = false) {shape : List Nat}
    {ds : List (Nat × Activation T)} (hne : ds ≠ []) (hwid : ∀ e ∈ ds, 0 < e.1) {w0 : World T} (hpos : 0 < w0.store.heap.next) :
    ∃ m w1, compiled shape (denses ds) w0 = .ok m w1 ∧ ∀ wa, Steps w0 w1 m w1 wa →
      ∃ wb, NetM.compileBP m wa = .ok () wb ∧ ∀ a, TSteps w0 w1 wa wb m wb a →
        ∀ t x pv, UserTensor w0 w1 a t x → x.shape = shape → HasParams a m pv →
        ∃ r b, NetM.predict m t a = .ok r b ∧ UserTensor w0 w1 b r (netFn (denses ds) pv x) ∧ HasParams b m pv := by
  obtain ⟨m, w1, e1, d, L, acts, D, H⟩ := prepared (shape := shape) hlaw hlt hne hwid hpos
  refine ⟨m, w1, e1, fun wa s => ?_⟩
  obtain ⟨wb, e, e2, N⟩ := H wa s
  refine ⟨wb, e2, fun a hs t x pv hu hx hp => ?_⟩
  have A := tlive_steps N hs
  have hd : AllDense (denses ds) := fun s hs => by
    obtain ⟨e, _, rfl⟩ := List.mem_map.1 hs
    exact ⟨_, _, rfl⟩
  have K := live_predict N.net.made A.live hu hx
  have K' : wp True (NetM.predict m t) (fun r b => Predicted m shape (ds.map dl) d x r a b ∧ Live w0 w1 m d b) a := by
    unfold wp at K ⊢
    cases e : NetM.predict m t a with
    | ok _ _ => rw [e] at K; exact K
    | err _ _ => rw [e] at K; exact (K (allDense_fits hd shape).2).elim
    | panic => rw [e] at K; exact (K (allDense_fits hd shape).2).elim
  obtain ⟨r, b, e3, P, _⟩ := wp_total K'
  exact ⟨r, b, e3, P.result N.net.made A.live hp, P.params N.net.made A.live hp⟩

/-- C42: `Train` is a sequence of single steps, with the samples it draws: after it the weights are those after one
`trainStep` for each drawn sample, and nothing else, in this order. -/
theorem C42_train (hlaw : eq (add zero one) (zero : T) = false) (hlt : lt one (add zero one : T) = false) {shape : List Nat}
    {ds : List (Nat × Activation T)} (hne : ds ≠ []) (hwid : ∀ e ∈ ds, 0 < e.1) {w0 : World T} (hpos : 0 < w0.store.heap.next) :
    ∃ m w1, compiled shape (denses ds) w0 = .ok m w1 ∧ ∀ wa, Steps w0 w1 m w1 wa →
      ∃ wb, NetM.compileBP m wa = .ok () wb ∧ ∀ a, TSteps w0 w1 wa wb m wb a →
        ∀ inputs targets (xs ys : Nat → STensor T) epochs batch alpha momentum draw pv ts, inputs ≠ [] → inputs.length = targets.length →
          (∀ i t, inputs[i]? = some t → Sample w0 w1 wa wb a t (xs i) ∧ (xs i).shape = shape) →
          (∀ i t, targets[i]? = some t → Sample w0 w1 wa wb a t (ys i) ∧ (ys i).shape = outShapes (denses ds) shape) →
          HasParams a m pv → Trainable a m ts →
          ∃ b, NetM.train m inputs targets epochs batch alpha momentum draw a = .ok () b ∧
            HasParams b m (trainAll alpha momentum (ds.map Prod.snd) ts xs ys (drawn inputs.length epochs batch draw) pv) ∧ Trainable b m ts ∧
            (∀ n z, Sample w0 w1 wa wb a n z → Sample w0 w1 wa wb b n z) ∧ b.layers = a.layers ∧ b.nets = a.nets := by
  obtain ⟨m, w1, e1, d, L, acts, D, H⟩ := prepared (shape := shape) hlaw hlt hne hwid hpos
  refine ⟨m, w1, e1, fun wa s => ?_⟩
  obtain ⟨wb, e, e2, N⟩ := H wa s
  refine ⟨wb, e2, fun a hs inputs targets xs ys epochs batch alpha momentum draw pv ts hin hlen hx hy hp ht => ?_⟩
  have A := tlive_steps N hs
  have hpos : 0 < inputs.length := List.length_pos_iff.2 hin
  obtain ⟨done, rest, h', q1, q2, q3, q4, q5⟩ := N.train A hlen (fun i t h => (hx i t h).1) (fun i t h => (hy i t h).1) epochs batch alpha momentum draw
    (fun h => by omega)
  rw [A.flags N] at ht
  subst ht
  rcases q5 with ⟨r1, r2⟩ | ⟨k, r, er, r1, r2, r3⟩
  · subst r1
    rw [List.append_nil] at q1
    exact ⟨_, r2, by rw [q1]; exact q4 pv hp, ((A.change N q2).flags N).2 rfl, samples_kept N q2, rfl, rfl⟩
  · exfalso
    have hk : k ∈ drawn inputs.length epochs batch draw := by rw [q1, r1]; simp
    obtain ⟨j, _, rfl⟩ := List.mem_map.1 hk
    have hlt := Nat.mod_lt (draw j) hpos
    exact r2 ⟨(hx _ _ (List.getElem?_eq_getElem hlt)).2, (hy _ _ (List.getElem?_eq_getElem (by omega))).2⟩

/-- C42: The effect of a training step depends only on the weights, on which layers are trainable, on the sample and
the rates: in any two states of the program, whatever was trained before, the same step returns the same loss and
gives the same weights. -/
theorem C42_no_leak (hlaw : eq (add zero one) (zero : T) = false) (hlt : lt one (add zero one : T) = false) {shape : List Nat}
    {ds : List (Nat × Activation T)} (hne : ds ≠ []) (hwid : ∀ e ∈ ds, 0 < e.1) {w0 : World T} (hpos : 0 < w0.store.heap.next) :
    ∃ m w1, compiled shape (denses ds) w0 = .ok m w1 ∧ ∀ wa, Steps w0 w1 m w1 wa →
      ∃ wb, NetM.compileBP m wa = .ok () wb ∧ ∀ a a', TSteps w0 w1 wa wb m wb a → TSteps w0 w1 wa wb m wb a' →
        ∀ tx ty tx' ty' x y alpha momentum pv ts,
          Sample w0 w1 wa wb a tx x → Sample w0 w1 wa wb a ty y → Sample w0 w1 wa wb a' tx' x → Sample w0 w1 wa wb a' ty' y →
          x.shape = shape → y.shape = outShapes (denses ds) shape →
          HasParams a m pv → Trainable a m ts → HasParams a' m pv → Trainable a' m ts →
          ∃ loss b b' pv', NetM.trainOne m tx ty alpha momentum a = .ok loss b ∧ NetM.trainOne m tx' ty' alpha momentum a' = .ok loss b' ∧
            HasParams b m pv' ∧ HasParams b' m pv' := by
  obtain ⟨m, w1, e1, H⟩ := C41_train_one (shape := shape) hlaw hlt hne hwid hpos
  refine ⟨m, w1, e1, fun wa s => ?_⟩
  obtain ⟨wb, e2, H2⟩ := H wa s
  refine ⟨wb, e2, fun a a' s s' tx ty tx' ty' x y alpha momentum pv ts sx sy sx' sy' hx hy hp ht hp' ht' => ?_⟩
  obtain ⟨b, r1, r2, _⟩ := (H2 a s).2 tx ty x y alpha momentum pv ts sx sy hx hy hp ht
  obtain ⟨b', r1', r2', _⟩ := (H2 a' s').2 tx' ty' x y alpha momentum pv ts sx' sy' hx hy hp' ht'
  exact ⟨_, b, b', _, r1, r1', r2, r2'⟩

theorem trainNet_momentum {alpha mu mu' : T} (h : GoNum.mul zero mu = GoNum.mul zero mu') (y : STensor T) (as : List (Activation T)) :
    ∀ (ts : List Bool) (ps : List (List (STensor T))) (x z : STensor T) (f : T → T),
      trainNet alpha mu y as ts ps x z f = trainNet alpha mu' y as ts ps x z f := by
  induction as with
  | nil => intro ts ps x z f; simp [trainNet]
  | cons a as ih =>
    intro ts ps x z f
    rcases ts with _ | ⟨t, ts⟩
    · simp [trainNet]
    rcases ps with _ | ⟨p, ps⟩
    · simp [trainNet]
    rcases p with _ | ⟨u, p⟩
    · simp [trainNet]
    rcases p with _ | ⟨v, p⟩
    · simp [trainNet]
    rcases p with _ | ⟨v', p⟩
    · simp only [trainNet]
      rw [ih ts ps]
      unfold newWeights newBias
      rw [h]
    · simp [trainNet]

/-- C43, what holds: momentum enters a step only as `0 * momentum`, added to each new weight (see `newWeights`,
`newBias` in `C41_train_one`).  Missing: that it carries over the previous weight change; that is false, see
`C43_momentum_no_effect`. -/
theorem C43_momentum_term_partial {alpha mu mu' : T} (h : GoNum.mul zero mu = GoNum.mul zero mu') (as : List (Activation T))
    (ts : List Bool) (ps : List (List (STensor T))) (x y : STensor T) :
    trainStep alpha mu as ts ps x y = trainStep alpha mu' as ts ps x y := by
  unfold trainStep
  rw [trainNet_momentum h]

/-- C43 is false: In any state of the program, a training step has the same effect with any two momentums whose product
with 0 is the same (all numbers but infinities and NaN). -/
theorem C43_momentum_no_effect (hlaw : eq (add zero one) (zero : T) = false) (hlt : lt one (add zero one : T) = false) {shape : List Nat}
    {ds : List (Nat × Activation T)} (hne : ds ≠ []) (hwid : ∀ e ∈ ds, 0 < e.1) {w0 : World T} (hpos : 0 < w0.store.heap.next) :
    ∃ m w1, compiled shape (denses ds) w0 = .ok m w1 ∧ ∀ wa, Steps w0 w1 m w1 wa →
      ∃ wb, NetM.compileBP m wa = .ok () wb ∧ ∀ a, TSteps w0 w1 wa wb m wb a →
        ∀ tx ty x y alpha mu mu', GoNum.mul zero mu = GoNum.mul zero mu' →
          Sample w0 w1 wa wb a tx x → Sample w0 w1 wa wb a ty y → x.shape = shape → y.shape = outShapes (denses ds) shape →
          ∃ loss b b' pv, NetM.trainOne m tx ty alpha mu a = .ok loss b ∧ NetM.trainOne m tx ty alpha mu' a = .ok loss b' ∧
            HasParams b m pv ∧ HasParams b' m pv := by
  obtain ⟨m, w1, e1, H⟩ := C41_train_one (shape := shape) hlaw hlt hne hwid hpos
  refine ⟨m, w1, e1, fun wa s => ?_⟩
  obtain ⟨wb, e2, H2⟩ := H wa s
  refine ⟨wb, e2, fun a s tx ty x y alpha mu mu' h sx sy hx hy => ?_⟩
  obtain ⟨⟨pv, ts, hp, ht, _⟩, H3⟩ := H2 a s
  obtain ⟨b, r1, r2, _⟩ := H3 tx ty x y alpha mu pv ts sx sy hx hy hp ht
  obtain ⟨b', r1', r2', _⟩ := H3 tx ty x y alpha mu' pv ts sx sy hx hy hp ht
  rw [← C43_momentum_term_partial h] at r2'
  exact ⟨_, b, b', _, r1, r1', r2, r2'⟩

/-- the weights of as many layers as there are marks, each with a weight and a bias tensor -/
def Weighted (n : Nat) (pv : List (List (STensor T))) : Prop := pv.length = n ∧ ∀ p ∈ pv, p.length = 2

theorem trainNet_frozen (alpha mu : T) (y : STensor T) (as : List (Activation T)) :
    ∀ (ts : List Bool) (ps : List (List (STensor T))) (x z : STensor T) (f : T → T), ts.length = as.length → Weighted as.length ps →
      Weighted as.length (trainNet alpha mu y as ts ps x z f).1 ∧
      ∀ k : Nat, ts[k]? = some false → (trainNet alpha mu y as ts ps x z f).1[k]? = ps[k]? := by
  induction as with
  | nil =>
    intro ts ps x z f ht hp
    have h0 : ts = [] := by simpa using ht
    subst h0
    exact ⟨⟨by simp [trainNet], by simp [trainNet]⟩, by simp⟩
  | cons a as ih =>
    intro ts ps x z f ht hp
    obtain ⟨hl, hm⟩ := hp
    obtain _ | ⟨t, ts⟩ := ts
    · simp at ht
    obtain _ | ⟨p, ps⟩ := ps
    · simp at hl
    have h2 := hm p (by simp)
    obtain ⟨u, v, rfl⟩ := List.length_eq_two.1 h2
    simp only [List.length_cons, Nat.add_right_cancel_iff] at hl ht
    obtain ⟨i1, i2⟩ := ih ts ps ((denseFn id u v x).map a.activate) (denseFn id u v x) a.derive ht ⟨hl, fun p hp => hm p (by simp [hp])⟩
    simp only [trainNet]
    refine ⟨⟨by simp [i1.1], fun p hp => ?_⟩, fun k hk => ?_⟩
    · rcases List.mem_cons.1 hp with rfl | hp
      · split <;> rfl
      · exact i1.2 p hp
    · cases k with
      | zero =>
        simp only [List.getElem?_cons_zero, Option.some.injEq] at hk ⊢
        rw [hk]; rfl
      | succ k =>
        simp only [List.getElem?_cons_succ] at hk ⊢
        exact i2 k hk

theorem trainAll_frozen (alpha mu : T) {as : List (Activation T)} {ts : List Bool} (ht : ts.length = as.length) (xs ys : Nat → STensor T)
    (picks : List Nat) : ∀ pv : List (List (STensor T)), Weighted as.length pv →
      Weighted as.length (trainAll alpha mu as ts xs ys picks pv) ∧
      ∀ k : Nat, ts[k]? = some false → (trainAll alpha mu as ts xs ys picks pv)[k]? = pv[k]? := by
  induction picks with
  | nil => exact fun pv h => ⟨h, fun _ _ => rfl⟩
  | cons i picks ih =>
    intro pv h
    obtain ⟨a1, a2⟩ := trainNet_frozen alpha mu (ys i) as ts pv (xs i) (xs i) (Activation.linear : Activation T).derive ht h
    obtain ⟨b1, b2⟩ := ih _ a1
    exact ⟨b1, fun k hk => (b2 k hk).trans (a2 k hk)⟩

/-- C44: Layers that are not trainable keep their weights and biases through any number of calls of `Train` and
`TrainOne`, with any samples, rates and random numbers, and the marks do not change. -/
theorem C44_frozen (hlaw : eq (add zero one) (zero : T) = false) (hlt : lt one (add zero one : T) = false) {shape : List Nat}
    {ds : List (Nat × Activation T)} (hne : ds ≠ []) (hwid : ∀ e ∈ ds, 0 < e.1) {w0 : World T} (hpos : 0 < w0.store.heap.next) :
    ∃ m w1, compiled shape (denses ds) w0 = .ok m w1 ∧ ∀ wa, Steps w0 w1 m w1 wa →
      ∃ wb, NetM.compileBP m wa = .ok () wb ∧ ∀ a, TSteps w0 w1 wa wb m wb a →
        ∀ b pv ts, Trains w0 w1 wa wb m a b → HasParams a m pv → Trainable a m ts →
          ∃ pv', HasParams b m pv' ∧ Trainable b m ts ∧ pv'.length = pv.length ∧ ∀ k : Nat, ts[k]? = some false → pv'[k]? = pv[k]? := by
  obtain ⟨m, w1, e1, d, L, acts, D, H⟩ := prepared (shape := shape) hlaw hlt hne hwid hpos
  refine ⟨m, w1, e1, fun wa s => ?_⟩
  obtain ⟨wb, e, e2, N⟩ := H wa s
  refine ⟨wb, e2, fun a hs b pv ts tr hp ht => ?_⟩
  have A := tlive_steps N hs
  have hlen : ts.length = ds.length := by rw [(A.flags N).1 ht]; simp
  have hw : Weighted ds.length pv := by
    have h := (A.params N).1 hp
    refine ⟨by rw [← h.length_eq]; simp [parsFrom], fun p hp => ?_⟩
    obtain ⟨i, hi, rfl⟩ := List.mem_iff_getElem.1 hp
    have := (List.forall₂_iff_get.1 h).2 i (by rw [h.length_eq]; exact hi) hi
    have := this.length_eq
    simpa [parsFrom] using this.symm
  have hg : TLive w0 w1 wa wb m ds.length d e b ∧ ∃ pv', HasParams b m pv' ∧ Trainable b m ts ∧ Weighted ds.length pv' ∧
      ∀ k : Nat, ts[k]? = some false → pv'[k]? = pv[k]? := by
    clear hs
    induction tr with
    | none => exact ⟨A, pv, hp, ht, hw, fun _ _ => rfl⟩
    | more _ h ih =>
      obtain ⟨B, pv1, p1, t1, w1, k1⟩ := ih
      obtain ⟨h', alpha, mu, xs, ys, picks, rfl, c, hpp⟩ := N.any B h
      have hb := B.change N c
      have hf := (B.flags N).1 t1
      have hq := hpp _ p1
      rw [← hf] at hq
      obtain ⟨g1, g2⟩ := trainAll_frozen alpha mu (as := ds.map Prod.snd) (ts := ts) (by simp [hlen]) xs ys picks pv1 (by simpa using w1)
      exact ⟨hb, _, hq, (hb.flags N).2 hf, by simpa using g1, fun k hk => (g2 k hk).trans (k1 k hk)⟩
  obtain ⟨_, pv', h1, h2, h3, h4⟩ := hg
  exact ⟨pv', h1, h2, by rw [h3.1, hw.1], h4⟩

theorem setTrainable_chain {t : Bool} {x : Net T} {b : Nat} (hf : x.first = some b) (k : Nat) : ∀ (n : Nat) (w : World T), PreChain b k w → k < n →
    NetM.setTrainable.go t x n (some (b + k)) w =
      .ok () { w with layers := fun j => if b < j ∧ j ≤ b + k then { w.layers j with trainable := t } else w.layers j } := by
  induction k with
  | zero =>
    intro n w C hn
    obtain ⟨n, rfl⟩ : ∃ g, n = g + 1 := ⟨n - 1, by omega⟩
    unfold NetM.setTrainable.go
    rw [if_pos (by rw [hf, Nat.add_zero])]
    have : (fun j => if b < j ∧ j ≤ b + 0 then { w.layers j with trainable := t } else w.layers j) = w.layers := by
      funext j
      rw [if_neg (by omega)]
    rw [this]; rfl
  | succ k ih =>
    intro n w C hn
    obtain ⟨n, rfl⟩ : ∃ g, n = g + 1 := ⟨n - 1, by omega⟩
    unfold NetM.setTrainable.go
    rw [if_neg (by rw [hf]; simp)]
    obtain ⟨w', hw'⟩ : ∃ w' : World T, w' = { w with layers := fun j => if j = b + (k + 1) then { w.layers j with trainable := t } else w.layers j } := ⟨_, rfl⟩
    have hp : (w'.layers (b + (k + 1))).pre = some (b + k) := by
      rw [hw']
      have := C.pre k (by omega)
      rw [show b + 1 + k = b + (k + 1) by omega] at this
      simpa using this
    have e : (NetM.setTrainable.go t x n (w'.layers (b + (k + 1))).pre) w' = .ok () { w with layers := fun j => if b < j ∧ j ≤ b + (k + 1) then { w.layers j with trainable := t } else w.layers j } := by
      rw [hp, ih n w' ?_ (by omega)]
      · rw [hw']
        congr 1
        simp only [World.mk.injEq, true_and, and_true]
        funext j
        by_cases h1 : j = b + (k + 1)
        · rw [if_neg (by omega), if_pos h1, if_pos (by omega)]
        · rw [if_neg h1]
          by_cases h2 : b < j ∧ j ≤ b + k
          · rw [if_pos h2, if_pos (by omega)]
          · rw [if_neg h2, if_neg (by omega)]
      · refine ⟨?_, fun i hi => ?_⟩
        · rw [hw']
          show (if b = b + (k + 1) then _ else _ : Layer T).pre = none
          rw [if_neg (by omega)]; exact C.first
        · rw [hw']
          show (if b + 1 + i = b + (k + 1) then _ else _ : Layer T).pre = some (b + i)
          rw [if_neg (by omega)]; exact C.pre i (by omega)
    rw [hw'] at e
    rw [← e]
    rfl

theorem live_setTrainable {w0 w1 : World T} {m : Nat} {shape : List Nat} {ls : List (LSpec T)} {d : CData T} (M : Made w0 w1 m shape ls d)
    {w2 : World T} (A : Live w0 w1 m d w2) (t : Bool) :
    ∃ w3, NetM.setTrainable m t w2 = .ok () w3 ∧ Trainable w3 m (List.replicate ls.length t) ∧
        w3.store = w2.store ∧ w3.nets = w2.nets ∧ (∀ pv, HasParams w2 m pv → HasParams w3 m pv) := by
  have C := A.comp M
  have hf : (w2.nets m).first = some d.b := (Net.fwd_eq A.nets).1.trans M.first
  have hn : ls.length < w2.layerNext + 1 := by have := A.layerNext; have := M.next; omega
  have h := setTrainable_chain (t := t) (x := w2.nets m) hf ls.length (w2.layerNext + 1) w2 C.chain hn
  obtain ⟨f, hfd⟩ : ∃ f : Nat → Layer T, f = fun j => if d.b < j ∧ j ≤ d.b + ls.length then { w2.layers j with trainable := t } else w2.layers j := ⟨_, rfl⟩
  have h' : NetM.setTrainable m t w2 = .ok () { w2 with layers := f } := by
    show NetM.setTrainable.go t (w2.nets m) (w2.layerNext + 1) (w2.nets m).last w2 = _
    rw [C.last, hfd]; exact h
  refine ⟨_, h', ?_, rfl, rfl, ?_⟩
  · refine ⟨d.b + ls.length, C.last, ?_⟩
    have hc := trainableOf_chain (w := { w2 with layers := f }) (b := d.b) (n := ls.length) ⟨?_, fun i hi => ?_⟩
    · have e : (List.range ls.length).map (fun k => (f (d.b + 1 + k)).trainable) = List.replicate ls.length t := by
        rw [List.eq_replicate_iff]
        refine ⟨by simp, fun b hb => ?_⟩
        obtain ⟨k, hk, rfl⟩ := List.mem_map.1 hb
        have := List.mem_range.1 hk
        rw [hfd]
        dsimp only
        rw [if_pos (by omega)]
      rw [← e]; exact hc
    · show (f d.b).pre = none
      rw [hfd]
      dsimp only
      rw [if_neg (by omega)]; exact C.chain.first
    · show (f (d.b + 1 + i)).pre = some (d.b + i)
      rw [hfd]
      dsimp only
      rw [if_pos (by omega)]; exact C.chain.pre i hi
  · intro pv hp
    have B : Live w0 w1 m d { w2 with layers := f } := live_step M A (.use (.setTrainable h'))
    rw [A.hasParams M] at hp
    rw [B.hasParams M]
    exact hp

/-- C44: `SetTrainable` on a sequential model of any layers, in any state of the program, marks all layers after the
input layer, and changes nothing else. -/
theorem C44_set_trainable (hlaw : eq (add zero one) (zero : T) = false) {shape : List Nat} {ls : List (LSpec T)}
    (hfit : Fits ls shape) {w0 : World T} (hpos : 0 < w0.store.heap.next) :
    ∃ m w1, compiled shape ls w0 = .ok m w1 ∧ ∀ w2, Steps w0 w1 m w1 w2 → ∀ t,
      ∃ w3, NetM.setTrainable m t w2 = .ok () w3 ∧ Trainable w3 m (List.replicate ls.length t) ∧
        w3.store = w2.store ∧ w3.nets = w2.nets ∧ (∀ pv, HasParams w2 m pv → HasParams w3 m pv) := by
  obtain ⟨m, w1, e, d, _, _, _, M, _⟩ :=
    wp_total (compiled_ok hlaw hpos (fun s _ => ffGood_all s) hfit)
  exact ⟨m, w1, e, fun w2 hst t => live_setTrainable M (live_steps M hst) t⟩

/-- C44: the same between trainings.  After `SetTrainable(false)` no training changes any weight. -/
theorem C44_freeze_all (hlaw : eq (add zero one) (zero : T) = false) (hlt : lt one (add zero one : T) = false) {shape : List Nat}
    {ds : List (Nat × Activation T)} (hne : ds ≠ []) (hwid : ∀ e ∈ ds, 0 < e.1) {w0 : World T} (hpos : 0 < w0.store.heap.next) :
    ∃ m w1, compiled shape (denses ds) w0 = .ok m w1 ∧ ∀ wa, Steps w0 w1 m w1 wa →
      ∃ wb, NetM.compileBP m wa = .ok () wb ∧ ∀ a, TSteps w0 w1 wa wb m wb a →
        (∀ t, ∃ b, NetM.setTrainable m t a = .ok () b ∧ Trainable b m (List.replicate ds.length t) ∧
          b.store = a.store ∧ ∀ pv, HasParams a m pv → HasParams b m pv) ∧
        ∀ b c pv, NetM.setTrainable m false a = .ok () b → Trains w0 w1 wa wb m b c → HasParams a m pv → HasParams c m pv := by
  obtain ⟨m, w1, e1, d, L, acts, D, H⟩ := prepared (shape := shape) hlaw hlt hne hwid hpos
  obtain ⟨m', w1', e1', F⟩ := C44_frozen (shape := shape) hlaw hlt hne hwid hpos
  rw [e1] at e1'
  cases e1'
  refine ⟨m, w1, e1, fun wa s => ?_⟩
  obtain ⟨wb, e, e2, N⟩ := H wa s
  obtain ⟨wb', e2', F2⟩ := F wa s
  rw [e2] at e2'
  cases e2'
  refine ⟨wb, e2, fun a hs => ?_⟩
  have A := tlive_steps N hs
  have K := live_setTrainable N.net.made A.live
  simp only [List.length_map] at K
  refine ⟨fun t => ?_, fun b c pv he tr hp => ?_⟩
  · obtain ⟨b, b1, b2, b3, _, b4⟩ := K t
    exact ⟨b, b1, b2, b3, b4⟩
  · obtain ⟨b', b1, b2, b3, _, b4⟩ := K false
    rw [he] at b1
    cases b1
    obtain ⟨pv', q1, _, q3, q4⟩ := F2 b (.more hs (.other (.use (.setTrainable he)))) c pv _ tr (b4 pv hp) b2
    have hl : pv.length = ds.length := by
      have h := (A.params N).1 hp
      rw [← h.length_eq]; simp [parsFrom]
    have : pv' = pv := by
      apply List.ext_getElem? 
      intro k
      by_cases hk : k < ds.length
      · exact q4 k (by simp [hk])
      · rw [List.getElem?_eq_none (by omega), List.getElem?_eq_none (by omega)]
    rw [← this]; exact q1

theorem world2_holds (n : Nat) (hn : n < 2) :
    Holds world2.store.heap (world2.store.nodes n).mat ⟨[1], fun _ => if n = 0 then 5 else 11⟩ := by
  refine holds_of_cell ⟨rfl, rfl, ?_⟩ rfl fun k hk => ?_
  · intro p hp
    simp [world2] at hp
    subst hp
    constructor
    · split <;> decide
    · show (if n = 0 then 1 else 2) < 3
      split <;> decide
  · obtain ⟨i, hi, rfl⟩ := inRange_one hk
    obtain rfl : i = 0 := by omega
    rcases Nat.eq_zero_or_pos n with rfl | h
    · rfl
    · rw [show n = 1 by omega]; rfl

attribute [local irreducible] compiled NetM.compileBP NetM.trainOne netFn trainStep in
/-- The hypotheses of C41 to C44 are met: a model of three dense layers on the state `world2`; its tensors are a sample.
The second step is made after a training step and after freezing the model. -/
example : ∃ m w1 wb b c pv ts,
    compiled [1] (denses [(3, .relu 0), (2, .linear), (1, .linear)]) world2 = .ok m w1 ∧ NetM.compileBP m w1 = .ok () wb ∧
    HasParams wb m pv ∧ Trainable wb m ts ∧
    NetM.trainOne m 0 1 1 0 wb = .ok (absLoss ⟨[1], fun _ => 11⟩ (netFn (denses [(3, .relu 0), (2, .linear), (1, .linear)]) pv ⟨[1], fun _ => 5⟩)) b ∧
    HasParams b m (trainStep 1 0 [.relu 0, .linear, .linear] ts pv ⟨[1], fun _ => 5⟩ ⟨[1], fun _ => 11⟩) ∧
    TSteps world2 w1 w1 wb m wb b ∧ NetM.setTrainable m false b = .ok () c ∧ TSteps world2 w1 w1 wb m wb c ∧
    Trainable c m [false, false, false] ∧ Sample world2 w1 w1 wb b 0 ⟨[1], fun _ => (5 : Int)⟩ ∧
    ∃ d', NetM.train m [0, 0] [1, 1] 2 3 1 0 (fun k => 7 * k) b = .ok () d' := by
  have hw : ∀ e ∈ ([(3, .relu 0), (2, .linear), (1, .linear)] : List (Nat × Activation Int)), 0 < e.1 := by decide
  obtain ⟨m, w1, e1, H⟩ := C41_train_one (w0 := world2) (shape := [1]) (ds := [(3, .relu 0), (2, .linear), (1, .linear)]) (by decide) (by decide) (by simp) hw (by decide)
  obtain ⟨m', w1', e1', H1⟩ := C41_first (w0 := world2) (shape := [1]) (ds := [(3, .relu 0), (2, .linear), (1, .linear)]) (by decide) (by decide) (by simp) hw (by decide)
  obtain ⟨m'', w1'', e1'', H2⟩ := C44_freeze_all (w0 := world2) (shape := [1]) (ds := [(3, .relu 0), (2, .linear), (1, .linear)]) (by decide) (by decide) (by simp) hw (by decide)
  obtain ⟨m3, w13, e13, H3⟩ := C42_train (w0 := world2) (shape := [1]) (ds := [(3, .relu 0), (2, .linear), (1, .linear)]) (by decide) (by decide) (by simp) hw (by decide)
  obtain ⟨M, W, e0, d, L, acts, D⟩ := wp_total (dense_made (w0 := world2) (shape := [1]) (ds := [(3, .relu 0), (2, .linear), (1, .linear)]) (by decide) (by decide) (by decide))
  rw [e1] at e1' e1'' e13
  cases e1'; cases e1''; cases e13
  have e0 : compiled [1] (denses [(3, .relu 0), (2, .linear), (1, .linear)]) world2 = .ok M W := e0
  rw [e1] at e0
  cases e0
  obtain ⟨wb, e2, H⟩ := H w1 .none
  obtain ⟨wb', e2', _, _, _, H1⟩ := H1 w1 .none
  obtain ⟨wb'', e2'', H2⟩ := H2 w1 .none
  obtain ⟨wb3, e23, H3⟩ := H3 w1 .none
  rw [e2] at e2' e2'' e23
  cases e2'; cases e2''; cases e23
  obtain ⟨⟨pv, ts, hp, ht, _⟩, H⟩ := H wb .none
  have s : ∀ n, n < 2 → Sample world2 w1 w1 wb wb n ⟨[1], fun _ => if n = 0 then 5 else 11⟩ := fun n hn => by
    have hf : Spec.frozen world2.store n := frozen_leaf rfl
    have hu := user_made D.made (n := n) hn hf (world2_holds n hn)
    exact H1 n _ hu (D.made.apart.ext.frozen n hn hf).1
  obtain ⟨b, r1, r2, r3, r4, _⟩ := H 0 1 _ _ 1 0 pv ts (s 0 (by decide)) (s 1 (by decide)) rfl rfl hp ht
  have st : TSteps world2 w1 w1 wb m wb b := .more .none (.train (.one (s 0 (by decide)) (s 1 (by decide)) (.inl ⟨_, r1⟩)))
  obtain ⟨c, c1, c2, _⟩ := (H2 b st).1 false
  obtain ⟨d', r5, _⟩ := H3 b st [0, 0] [1, 1] (fun _ => ⟨[1], fun _ => 5⟩) (fun _ => ⟨[1], fun _ => 11⟩) 2 3 1 0 (fun k => 7 * k) _ ts (by simp) rfl
    (fun i t h => by
      obtain rfl : t = 0 := by simpa using List.mem_of_getElem? h
      exact ⟨r4 0 _ (s 0 (by decide)), rfl⟩)
    (fun i t h => by
      obtain rfl : t = 1 := by simpa using List.mem_of_getElem? h
      exact ⟨r4 1 _ (s 1 (by decide)), rfl⟩) r2 r3
  exact ⟨m, w1, wb, b, c, pv, ts, e1, e2, hp, ht, r1, r2, st, c1, .more st (.other (.use (.setTrainable c1))), c2, r4 0 _ (s 0 (by decide)), d', r5⟩

end Godeep.Props
