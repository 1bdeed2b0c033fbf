import Verif.Lemmas.GRun
import Verif.Props.Train
import Verif.Props.TrainKinds
import Verif.Props.Gradient
import Mathlib.Tactic.IntervalCases
/-
  C67 (what holds), C68: training of sequential models with layers of any kind.
-/
set_option linter.unusedSectionVars false

namespace Godeep.Props
open Godeep Spec GoNum

variable {T : Type} [GoNum T]

theorem gprepared (hlaw : eq (add zero one) (zero : T) = false) {shape : List Nat} {ls : List (LSpec T)} (hfit : Fits ls shape) (hcan : CanLearn shape ls)
    {w0 : World T} (hpos : 0 < w0.store.heap.next) :
    ∃ m w1, compiled shape ls w0 = .ok m w1 ∧ ∃ d L, GNet shape ls m d L w0 w1 ∧ ∀ wa, Steps w0 w1 m w1 wa →
      ∃ wb e, NetM.compileBP m wa = .ok () wb ∧ GTNet shape ls m d L e w0 w1 wa wb := by
  obtain ⟨m, w1, e1, d, L, D⟩ := wp_total (gnet_made (shape := shape) (ls := ls) hlaw hpos (fun s _ => ffGood_all s) hfit)
  refine ⟨m, w1, e1, d, L, D, fun wa s => ?_⟩
  obtain ⟨e, wb, e2, N⟩ := D.gtnet hcan (gpre_steps D.made s)
  exact ⟨wb, e, e2, N⟩

/-- C68: A program makes a sequential model of layers of any kind (with `Fits` and `CanLearn`) and compiles it; after any use of it, it calls
`CompileBackPropagation`, which succeeds; any uses and trainings follow.  Every state `a` so reached has a history, which
determines the last changes `mv` of the biases of the convolutions.  In `a`, `TrainOne` with a sample of the right shapes succeeds.
It returns the sum of the distances between the target and the output.  The weights, the biases and the last changes
become those of `learnStep`: the errors are target minus output at the end and are passed back through all layers with the old
weights; a layer that is not trainable keeps its weights.  All other tensors keep their values. -/
theorem C68_train_one (hlaw : eq (add zero one) (zero : T) = false) {shape : List Nat} {ls : List (LSpec T)} (hfit : Fits ls shape)
    (hcan : CanLearn shape ls) {w0 : World T} (hpos : 0 < w0.store.heap.next) :
    ∃ m w1, compiled shape ls w0 = .ok m w1 ∧ ∀ wa, Steps w0 w1 m w1 wa →
      ∃ wb, NetM.compileBP m wa = .ok () wb ∧ (∀ a, TSteps w0 w1 wa wb m wb a → ∃ mv, Learnt w0 w1 wa wb m shape ls a mv) ∧
        ∀ a mv, Learnt w0 w1 wa wb m shape ls a mv →
        (∃ pv ts, HasParams a m pv ∧ Trainable a m ts ∧ pv.length = ls.length ∧ ts.length = ls.length) ∧
        ∀ tx ty x y alpha momentum pv ts, Sample w0 w1 wa wb a tx x → Sample w0 w1 wa wb a ty y →
          x.shape = shape → y.shape = outShapes ls shape → HasParams a m pv → Trainable a m ts →
          ∃ b, NetM.trainOne m tx ty alpha momentum a = .ok (absLoss y (netFn ls pv x)) b ∧
            HasParams b m (learnStep alpha momentum ls ts (pv, mv) x y).1 ∧ Trainable b m ts ∧
            Learnt w0 w1 wa wb m shape ls b (learnStep alpha momentum ls ts (pv, mv) x y).2 ∧
            (∀ n z, Sample w0 w1 wa wb a n z → Sample w0 w1 wa wb b n z) ∧ b.layers = a.layers ∧ b.nets = a.nets := by
  obtain ⟨m, w1, e1, d, L, D, H⟩ := gprepared (shape := shape) hlaw hfit hcan hpos
  refine ⟨m, w1, e1, fun wa s => ?_⟩
  obtain ⟨wb, e, e2, N⟩ := H wa s
  refine ⟨wb, e2, fun a hs => learnt_steps N hs, fun a mv hs => ?_⟩
  obtain ⟨A, hm⟩ := learnt_live N hs
  refine ⟨?_, fun tx ty x y alpha momentum pv ts sx sy hx hy hp ht => ?_⟩
  · obtain ⟨pv, hp, hl, _⟩ := A.live.someParams N.net.made
    exact ⟨pv, _, hp, (A.flags N).2 rfl, hl, by simp⟩
  · obtain ⟨h', r1, r2, r3, r4⟩ := N.trainOne A sx sy hx hy alpha momentum hp hm
    have ht' := ht
    rw [A.flags N] at ht
    subst ht
    exact ⟨_, r1, r3, ((A.change N r2).flags N).2 rfl, .one hs sx sy hx hy hp ht' (.inl ⟨_, r1⟩), fun n z s => N.sample s r2, rfl, rfl⟩

/-- C68: samples of wrong shapes are rejected; the weights, the last changes and all other tensors keep their values -/
theorem C68_rejected (hlaw : eq (add zero one) (zero : T) = false) {shape : List Nat} {ls : List (LSpec T)} (hfit : Fits ls shape)
    (hcan : CanLearn shape ls) {w0 : World T} (hpos : 0 < w0.store.heap.next) :
    ∃ m w1, compiled shape ls w0 = .ok m w1 ∧ ∀ wa, Steps w0 w1 m w1 wa →
      ∃ wb, NetM.compileBP m wa = .ok () wb ∧ ∀ a mv, Learnt w0 w1 wa wb m shape ls a mv →
        ∀ tx ty x y alpha momentum pv, Sample w0 w1 wa wb a tx x → Sample w0 w1 wa wb a ty y →
          ¬ (x.shape = shape ∧ y.shape = outShapes ls shape) → HasParams a m pv →
          ∃ er b, NetM.trainOne m tx ty alpha momentum a = .err er b ∧ HasParams b m pv ∧ Learnt w0 w1 wa wb m shape ls b mv ∧
            (∀ n z, Sample w0 w1 wa wb a n z → Sample w0 w1 wa wb b n z) ∧ b.layers = a.layers ∧ b.nets = a.nets := by
  obtain ⟨m, w1, e1, d, L, D, H⟩ := gprepared (shape := shape) hlaw hfit hcan hpos
  refine ⟨m, w1, e1, fun wa s => ?_⟩
  obtain ⟨wb, e, e2, N⟩ := H wa s
  refine ⟨wb, e2, fun a mv hs tx ty x y alpha momentum pv sx sy hsh hp => ?_⟩
  obtain ⟨A, hm⟩ := learnt_live N hs
  obtain ⟨er, h', r1, r2, r3, r4⟩ := N.trainOne_err A sx sy hsh alpha momentum
  exact ⟨er, _, r1, r3 pv hp, .reject hs sx sy hsh (.inr ⟨_, r1⟩), fun n z s => N.sample s r2, rfl, rfl⟩

/-- C68: without a call of `CompileBackPropagation` the first `TrainOne` makes it: the effect is the same.  `CompileBackPropagation`
changes no weight.  The samples may be any tensors that share no element with the model. -/
theorem C68_first (hlaw : eq (add zero one) (zero : T) = false) {shape : List Nat} {ls : List (LSpec T)} (hfit : Fits ls shape)
    (hcan : CanLearn shape ls) {w0 : World T} (hpos : 0 < w0.store.heap.next) :
    ∃ m w1, compiled shape ls w0 = .ok m w1 ∧ ∀ wa, Steps w0 w1 m w1 wa →
      ∃ wb, NetM.compileBP m wa = .ok () wb ∧
        (∀ tx ty alpha momentum, NetM.trainOne m tx ty alpha momentum wa = NetM.trainOne m tx ty alpha momentum wb) ∧
        (∀ pv, HasParams wa m pv → HasParams wb m pv) ∧ (∀ ts, Trainable wa m ts → Trainable wb m ts) ∧
        ∀ t x, UserTensor w0 w1 wa t x → Spec.frozen wa.store t → Sample w0 w1 wa wb wb t x := by
  obtain ⟨m, w1, e1, d, L, D, H⟩ := gprepared (shape := shape) hlaw hfit hcan hpos
  refine ⟨m, w1, e1, fun wa s => ?_⟩
  obtain ⟨wb, e, e2, N⟩ := H wa s
  have B := N.built
  refine ⟨wb, e2, fun tx ty alpha momentum => ?_, fun pv hp => ?_, fun ts ht => ?_, fun t x hu hf => ?_⟩
  · have n1 : (wa.nets m).bp = none := by rw [N.pre.net]; exact D.net
    have n2 : (wb.nets m).bp = some e.bp := (N.start.sameNet N).2.2.2.2.1
    have g : ∀ w : World T, NetM.trainOne m tx ty alpha momentum w = (match (w.nets m).bp with
        | none => NetM.compileBP m
        | some _ => pure () : Run T Unit).bind (fun _ => (do
          let p ← Run.net m
          Run.setValue p.alpha alpha
          Run.setValue p.momentum momentum
          NetM.execFit m tx ty
          let p ← Run.net m
          Run.value p.loss : Run T T)) w := by
      intro w
      show (match (w.nets m).bp with | none => _ | some _ => _ : Run T T) w = _
      cases (w.nets m).bp <;> rfl
    rw [g wa, g wb, n1, n2]
    show (NetM.compileBP m wa).bind _ = _
    rw [e2]
    rfl
  · rw [N.pre.live.hasParams N.net.made] at hp
    rw [N.start.live.hasParams N.net.made]
    have C := N.pre.live.comp N.net.made
    exact forall₂_kept B.wide.ext.next (fun p hp y hy q hq =>
      B.wide.val q (lt_of_lt_of_le (C.stage.par p hp y hy q hq).2.1 C.hi.2)) hp
  · have C := N.pre.live.comp N.net.made
    have hc := C.chain
    have hl := C.last
    obtain ⟨l, h1, h2⟩ := ht
    rw [hl] at h1; cases h1
    rw [N.start.flags N, h2.unique (trainableOf_chain hc)]
    exact List.map_congr_left fun k _ => (B.train _).symm
  · obtain ⟨_, em⟩ := B.wide.ext.frozen t hu.1 hf
    refine ⟨lt_of_lt_of_le hu.1 B.wide.ext.nodeNext, ?_, fun q hq => ?_⟩
    · rw [em]
      exact hu.2.1.kept B.wide.ext.next fun q hq => B.wide.val q (hu.2.1.valid q hq).2
    · rw [em] at hq
      exact ⟨hu.2.2 q hq, Or.inl (hu.2.1.valid q hq).2⟩

/-- C68: `Train` is a sequence of single steps with the samples that it draws, up to the first one of a wrong shape.  It returns an error
exactly if there is one of a wrong shape. -/
theorem C68_train (hlaw : eq (add zero one) (zero : T) = false) {shape : List Nat} {ls : List (LSpec T)} (hfit : Fits ls shape)
    (hcan : CanLearn shape ls) {w0 : World T} (hpos : 0 < w0.store.heap.next) :
    ∃ m w1, compiled shape ls w0 = .ok m w1 ∧ ∀ wa, Steps w0 w1 m w1 wa →
      ∃ wb, NetM.compileBP m wa = .ok () wb ∧ ∀ a mv, Learnt w0 w1 wa wb m shape ls a mv →
        ∀ inputs targets (xs ys : Nat → STensor T) epochs batch alpha momentum draw pv ts, inputs ≠ [] → inputs.length = targets.length →
          (∀ i t, inputs[i]? = some t → Sample w0 w1 wa wb a t (xs i)) → (∀ i t, targets[i]? = some t → Sample w0 w1 wa wb a t (ys i)) →
          HasParams a m pv → Trainable a m ts →
          let done := accepted shape ls xs ys (drawn inputs.length epochs batch draw)
          ∃ b, ((done = drawn inputs.length epochs batch draw ∧ NetM.train m inputs targets epochs batch alpha momentum draw a = .ok () b) ∨
              (done ≠ drawn inputs.length epochs batch draw ∧ ∃ er, NetM.train m inputs targets epochs batch alpha momentum draw a = .err er b)) ∧
            HasParams b m (learnAll alpha momentum ls ts xs ys done (pv, mv)).1 ∧ Trainable b m ts ∧
            Learnt w0 w1 wa wb m shape ls b (learnAll alpha momentum ls ts xs ys done (pv, mv)).2 ∧
            (∀ n z, Sample w0 w1 wa wb a n z → Sample w0 w1 wa wb b n z) ∧ b.layers = a.layers ∧ b.nets = a.nets := by
  obtain ⟨m, w1, e1, d, L, D, H⟩ := gprepared (shape := shape) hlaw hfit hcan hpos
  refine ⟨m, w1, e1, fun wa s => ?_⟩
  obtain ⟨wb, e, e2, N⟩ := H wa s
  refine ⟨wb, e2, fun a mv hs inputs targets xs ys epochs batch alpha momentum draw pv ts hin hlen hx hy hp ht => ?_⟩
  obtain ⟨A, hm⟩ := learnt_live N hs
  have hpos : 0 < inputs.length := List.length_pos_iff.2 hin
  obtain ⟨h', r1, r2, r3, r4⟩ := N.train' A hm hp hlen hx hy epochs batch alpha momentum draw (fun h => by omega)
  have ht' := ht
  rw [A.flags N] at ht
  subst ht
  refine ⟨_, r4, r2, ((A.change N r1).flags N).2 rfl, .many hs hlen hx hy hp ht' ?_, fun n z s => N.sample s r1, rfl, rfl⟩
  rcases r4 with ⟨_, r⟩ | ⟨_, er, r⟩
  · exact .inl ⟨_, r⟩
  · exact .inr ⟨_, r⟩

/-- C68, predictions of models that are trained: in any state between trainings `Predict` computes the composition of the layers'
functions with the weights of that state -/
theorem C68_predict_trained (hlaw : eq (add zero one) (zero : T) = false) {shape : List Nat} {ls : List (LSpec T)} (hfit : Fits ls shape)
    (hcan : CanLearn shape ls) {w0 : World T} (hpos : 0 < w0.store.heap.next) :
    ∃ m w1, compiled shape ls w0 = .ok m w1 ∧ ∀ wa, Steps w0 w1 m w1 wa →
      ∃ wb, NetM.compileBP m wa = .ok () wb ∧ ∀ a, TSteps w0 w1 wa wb m wb a →
        ∀ t x pv, UserTensor w0 w1 a t x → x.shape = shape → HasParams a m pv →
        ∃ r b, NetM.predict m t a = .ok r b ∧ UserTensor w0 w1 b r (netFn ls pv x) ∧ HasParams b m pv := by
  obtain ⟨m, w1, e1, d, L, D, H⟩ := gprepared (shape := shape) hlaw hfit hcan hpos
  refine ⟨m, w1, e1, fun wa s => ?_⟩
  obtain ⟨wb, e, e2, N⟩ := H wa s
  refine ⟨wb, e2, fun a hs t x pv hu hx hp => ?_⟩
  obtain ⟨mv, hs⟩ := learnt_steps N hs
  obtain ⟨A, hm⟩ := learnt_live N hs
  have K := live_predict N.net.made A.live hu hx
  have K' : wp True (NetM.predict m t) (fun r b => Predicted m shape ls d x r a b ∧ Live w0 w1 m d b) a := by
    unfold wp at K ⊢
    cases e : NetM.predict m t a with
    | ok _ _ => rw [e] at K; exact K
    | err _ _ => rw [e] at K; exact (K hcan.safe).elim
    | panic => rw [e] at K; exact (K hcan.safe).elim
  obtain ⟨r, b, e3, P, _⟩ := wp_total K'
  exact ⟨r, b, e3, P.result N.net.made A.live hp, P.params N.net.made A.live hp⟩

theorem learn_frozen (al mu : T) (y : STensor T) : ∀ (ls : List (LSpec T)) (ts : List Bool) (pv mv : List (List (STensor T))) (x D : STensor T),
    pv.length = ls.length → mv.length = ls.length → ts.length = ls.length →
    ∀ k : Nat, ts[k]? = some false → (learn al mu y ls ts pv mv x D).1[k]? = pv[k]?
  | [], ts, pv, mv, x, D, hp, hm, ht, k => by
    obtain rfl : ts = [] := by simpa using ht
    simp
  | l :: ls, [], _, _, _, _, _, _, ht, _ => by simp at ht
  | l :: ls, _ :: _, [], _, _, _, hp, _, _, _ => by simp at hp
  | l :: ls, _ :: _, _ :: _, [], _, _, _, hm, _, _ => by simp at hm
  | l :: ls, t :: ts, p :: ps, q :: qs, x, D, hp, hm, ht, k => by
    intro hk
    simp only [List.length_cons, Nat.add_right_cancel_iff] at hp hm ht
    cases k with
    | zero =>
      simp only [List.getElem?_cons_zero, Option.some.injEq] at hk
      simp [learn, hk]
    | succ k =>
      simp only [List.getElem?_cons_succ] at hk
      simpa [learn] using learn_frozen al mu y ls ts ps qs _ _ hp hm ht k hk

theorem learnAll_frozen (al mu : T) {ls : List (LSpec T)} {ts : List Bool} (ht : ts.length = ls.length) (xs ys : Nat → STensor T) (picks : List Nat) :
    ∀ pv mv : List (List (STensor T)), pv.length = ls.length → mv.length = ls.length →
      (learnAll al mu ls ts xs ys picks (pv, mv)).1.length = ls.length ∧
      ∀ k : Nat, ts[k]? = some false → (learnAll al mu ls ts xs ys picks (pv, mv)).1[k]? = pv[k]? := by
  induction picks with
  | nil => exact fun pv mv hp _ => ⟨hp, fun _ _ => rfl⟩
  | cons i picks ih =>
    intro pv mv hp hm
    obtain ⟨l1, l2⟩ := learn_length al mu (ys i) ls ts pv mv (xs i) ((xs i).map (Activation.linear : Activation T).derive) ht hp hm
    obtain ⟨b1, b2⟩ := ih _ _ l1 l2
    exact ⟨b1, fun k hk => (b2 k hk).trans (learn_frozen al mu (ys i) ls ts pv mv (xs i) _ hp hm ht k hk)⟩

/-- C44, for layers of any kind: layers that are not trainable keep their weights and biases through any number of calls of `Train` and
`TrainOne`, with any samples, rates and random numbers, and the marks do not change. -/
theorem C44_frozen_any (hlaw : eq (add zero one) (zero : T) = false) {shape : List Nat} {ls : List (LSpec T)} (hfit : Fits ls shape)
    (hcan : CanLearn shape ls) {w0 : World T} (hpos : 0 < w0.store.heap.next) :
    ∃ m w1, compiled shape ls w0 = .ok m w1 ∧ ∀ wa, Steps w0 w1 m w1 wa →
      ∃ wb, NetM.compileBP m wa = .ok () wb ∧ ∀ a, TSteps w0 w1 wa wb m wb a →
        ∀ b pv ts, Trains w0 w1 wa wb m a b → HasParams a m pv → Trainable a m ts →
          ∃ pv', HasParams b m pv' ∧ Trainable b m ts ∧ pv'.length = pv.length ∧ ∀ k : Nat, ts[k]? = some false → pv'[k]? = pv[k]? := by
  obtain ⟨m, w1, e1, d, L, D, H⟩ := gprepared (shape := shape) hlaw hfit hcan hpos
  refine ⟨m, w1, e1, fun wa s => ?_⟩
  obtain ⟨wb, e, e2, N⟩ := H wa s
  refine ⟨wb, e2, fun a hs b pv ts tr hp ht => ?_⟩
  obtain ⟨mv, hs⟩ := learnt_steps N hs
  obtain ⟨A, hm⟩ := learnt_live N hs
  have hlen : ts.length = ls.length := by rw [(A.flags N).1 ht]; simp
  have hpl : ∀ {a : World T} {pv : List (List (STensor T))}, GLive w0 w1 wa wb m ls.length d e a → HasParams a m pv → pv.length = ls.length := fun A hp => by
    have := ((A.params N).1 hp).length_eq
    rw [N.net.ps, List.length_map, List.length_range] at this
    exact this.symm
  have hg : (∃ mv, Learnt w0 w1 wa wb m shape ls b mv) ∧ ∃ pv', HasParams b m pv' ∧ Trainable b m ts ∧ ∀ k : Nat, ts[k]? = some false → pv'[k]? = pv[k]? := by
    induction tr with
    | none => exact ⟨⟨mv, hs⟩, pv, hp, ht, fun _ _ => rfl⟩
    | @more b c _ h ih =>
      obtain ⟨⟨mv', hb⟩, pv1, p1, t1, k1⟩ := ih
      refine ⟨learnt_step N hb (.train h), ?_⟩
      obtain ⟨B, hm'⟩ := learnt_live N hb
      have hf := (B.flags N).1 t1
      have hl1 := hpl B p1
      cases h with
      | @one tx ty x y alpha momentum sx sy he =>
        by_cases hsh : x.shape = shape ∧ y.shape = outShapes ls shape
        · obtain ⟨h', r1, r2, r3, r4⟩ := N.trainOne B sx sy hsh.1 hsh.2 alpha momentum p1 hm'
          obtain rfl := ends_eq he (Or.inl ⟨_, r1⟩)
          refine ⟨_, r3, ((B.change N r2).flags N).2 hf, fun k hk => ?_⟩
          rw [← hf]
          exact (learn_frozen alpha momentum y ls ts pv1 mv' x _ hl1 hm'.len hlen k hk).trans (k1 k hk)
        · obtain ⟨er, h', r1, r2, r3, r4⟩ := N.trainOne_err B sx sy hsh alpha momentum
          obtain rfl := ends_eq he (Or.inr ⟨_, r1⟩)
          exact ⟨pv1, r3 _ p1, ((B.change N r2).flags N).2 hf, k1⟩
      | @many inputs targets epochs batch alpha momentum draw hx hy he =>
        by_cases hin : inputs.length = targets.length
        · obtain ⟨xs, hxs⟩ := choose_samples hx
          obtain ⟨ys, hys⟩ := choose_samples hy
          by_cases hne : inputs.length = 0 → drawn inputs.length epochs batch draw = []
          · obtain ⟨h', r1, r2, r3, r4⟩ := N.train' B hm' p1 hin hxs hys epochs batch alpha momentum draw hne
            obtain rfl := ends_eq he (by rcases r4 with ⟨_, r⟩ | ⟨_, er, r⟩; exacts [Or.inl ⟨_, r⟩, Or.inr ⟨_, r⟩])
            refine ⟨_, r2, ((B.change N r1).flags N).2 hf, fun k hk => ?_⟩
            rw [← hf]
            exact ((learnAll_frozen alpha momentum hlen xs ys _ pv1 mv' hl1 hm'.len).2 k hk).trans (k1 k hk)
          · obtain ⟨h1, h2⟩ := Classical.not_imp.1 hne
            rw [N.train_empty B hin epochs batch alpha momentum draw h1 h2] at he
            rcases he with ⟨r, he⟩ | ⟨er, he⟩ <;> cases he
        · obtain ⟨er, r⟩ := train_unequal (m := m) (a := b) hin epochs batch alpha momentum draw
          obtain rfl := ends_eq he (Or.inr ⟨_, r⟩)
          exact ⟨pv1, p1, t1, k1⟩
  obtain ⟨⟨mv', hb⟩, pv', h1, h2, h3⟩ := hg
  exact ⟨pv', h1, h2, by rw [hpl (learnt_live N hb).1 h1, hpl A hp], h3⟩

/-- C67, what holds: A sequential model that compiles can be trained if its convolutions have square kernels and equal strides and
no layer can abort (`CanLearn`): `CompileBackPropagation` succeeds, and so does `TrainOne` with samples of the right shapes, before
and after any other trainings and uses.  Missing: kernels that are not square and unequal strides; for these it is false, see `C67_conv_cannot_train`. -/
theorem C67_trains_partial (hlaw : eq (add zero one) (zero : T) = false) {shape : List Nat} {ls : List (LSpec T)} (hfit : Fits ls shape)
    (hcan : CanLearn shape ls) {w0 : World T} (hpos : 0 < w0.store.heap.next) :
    ∃ m w1, compiled shape ls w0 = .ok m w1 ∧ ∀ wa, Steps w0 w1 m w1 wa →
      ∃ wb, NetM.compileBP m wa = .ok () wb ∧ ∀ a, TSteps w0 w1 wa wb m wb a →
        ∀ tx ty x y alpha momentum, Sample w0 w1 wa wb a tx x → Sample w0 w1 wa wb a ty y → x.shape = shape → y.shape = outShapes ls shape →
          ∃ loss b, NetM.trainOne m tx ty alpha momentum a = .ok loss b ∧ TSteps w0 w1 wa wb m wb b := by
  obtain ⟨m, w1, e1, H⟩ := C68_train_one hlaw hfit hcan hpos
  refine ⟨m, w1, e1, fun wa s => ?_⟩
  obtain ⟨wb, e2, h1, h2⟩ := H wa s
  refine ⟨wb, e2, fun a hs tx ty x y alpha momentum sx sy hx hy => ?_⟩
  obtain ⟨mv, hl⟩ := h1 a hs
  obtain ⟨⟨pv, ts, hp, ht, _⟩, h3⟩ := h2 a mv hl
  obtain ⟨b, r, _⟩ := h3 tx ty x y alpha momentum pv ts sx sy hx hy hp ht
  exact ⟨_, b, r, .more hs (.train (.one sx sy (.inl ⟨_, r⟩)))⟩

/-- a state with two tensors, an input of shape `sx` whose elements are `cx` and a target of shape `sy` whose elements are `cy` -/
def worldPair (sx sy : List Nat) (cx cy : T) : World T where
  store := ⟨fun n => if n = 0 then ⟨.leaf, ⟨sx, indexMul sx, List.range' 1 (size sx)⟩, false⟩
      else ⟨.leaf, ⟨sy, indexMul sy, List.range' (1 + size sx) (size sy)⟩, false⟩,
    ⟨fun q => if q < 1 + size sx then cx else cy, 1 + size sx + size sy⟩, []⟩
  nodeNext := 2
  layers := fun _ => LayerM.blank .input
  layerNext := 0
  nets := fun _ => NetM.blankNet
  netNext := 0
  rnd := fun _ _ => cx
  draws := 0

theorem worldPair_holds (sx sy : List Nat) (cx cy : T) (n : Nat) :
    Holds (worldPair sx sy cx cy).store.heap ((worldPair sx sy cx cy).store.nodes n).mat (if n = 0 then ⟨sx, fun _ => cx⟩ else ⟨sy, fun _ => cy⟩) := by
  by_cases hn : n = 0
  · simp only [if_pos hn, worldPair]
    have g : GoodMat (Heap.mk (fun q => if q < 1 + size sx then cx else cy) (1 + size sx + size sy)) ⟨sx, indexMul sx, List.range' 1 (size sx)⟩ :=
      ⟨rfl, by simp, fun p hp => by
        simp only [List.mem_range'_1] at hp
        exact ⟨by omega, by show p < 1 + size sx + size sy; omega⟩⟩
    refine holds_of_cell g rfl fun k hk => ?_
    have hm := cell_mem g hk
    simp only [List.mem_range'_1] at hm
    exact if_pos (by omega)
  · simp only [if_neg hn, worldPair]
    have g : GoodMat (Heap.mk (fun q => if q < 1 + size sx then cx else cy) (1 + size sx + size sy)) ⟨sy, indexMul sy, List.range' (1 + size sx) (size sy)⟩ :=
      ⟨rfl, by simp, fun p hp => by
        simp only [List.mem_range'_1] at hp
        exact ⟨by omega, by show p < 1 + size sx + size sy; omega⟩⟩
    refine holds_of_cell g rfl fun k hk => ?_
    have hm := cell_mem g hk
    simp only [List.mem_range'_1] at hm
    exact if_neg (by omega)

/-- The hypotheses of the theorems above are met: for all layers with `Fits` and `CanLearn`, the two tensors of `worldPair` are samples in the
state after `CompileBackPropagation`. -/
theorem worldPair_sample (hlaw : eq (add zero one) (zero : T) = false) {shape : List Nat} {ls : List (LSpec T)} (hfit : Fits ls shape)
    (hcan : CanLearn shape ls) (sy : List Nat) (cx cy : T) :
    ∃ m w1 wb, compiled shape ls (worldPair shape sy cx cy) = .ok m w1 ∧ NetM.compileBP m w1 = .ok () wb ∧
      Sample (worldPair shape sy cx cy) w1 w1 wb wb 0 ⟨shape, fun _ => cx⟩ ∧ Sample (worldPair shape sy cx cy) w1 w1 wb wb 1 ⟨sy, fun _ => cy⟩ := by
  have hpos : 0 < (worldPair shape sy cx cy).store.heap.next := by show 0 < 1 + size shape + size sy; omega
  obtain ⟨m, w1, e1, d, L, D, H⟩ := gprepared (w0 := worldPair shape sy cx cy) hlaw hfit hcan hpos
  obtain ⟨m', w1', e1', K⟩ := C68_first (w0 := worldPair shape sy cx cy) hlaw hfit hcan hpos
  rw [e1] at e1'
  cases e1'
  obtain ⟨wb, e2, _, _, _, K⟩ := K w1 .none
  have s : ∀ n, n < 2 → Sample (worldPair shape sy cx cy) w1 w1 wb wb n (if n = 0 then ⟨shape, fun _ => cx⟩ else ⟨sy, fun _ => cy⟩) := fun n hn => by
    have hf : Spec.frozen (worldPair shape sy cx cy).store n := frozen_leaf (by simp only [worldPair]; split <;> rfl)
    exact K n _ (user_made D.made (n := n) hn hf (worldPair_holds _ _ _ _ n)) (D.made.apart.ext.frozen n hn hf).1
  exact ⟨m, w1, wb, e1, e2, s 0 (by decide), s 1 (by decide)⟩

/-- a network with layers of many kinds, over the real numbers -/
noncomputable def manyKinds : List (LSpec ℝ) :=
  [.conv 2 2 2 1 1 (.relu 0), .maxPool 2 2, .upSampling 2, .deconv 1 2 1 1 1 .linear, .norm, .flatten, .sub 0 1 4, .dense 3 .linear, .softMax]

theorem manyKinds_fits : Fits manyKinds [1, 3, 3] := by
  simp [manyKinds, Fits, LSpec.fits, LSpec.outShape, size]

theorem manyKinds_can : CanLearn [1, 3, 3] manyKinds where
  bpf := by simp [manyKinds, LSpec.bpFits]
  bps := by
    intro j s h
    rcases Nat.lt_or_ge j 9 with hj | hj
    · interval_cases j <;> simp [manyKinds] at h <;> subst h <;> simp [LSpec.bpSafe, manyKinds, outShapes, LSpec.outShape]
      · exact fun _ _ => rfl
    · rw [List.getElem?_eq_none (by simpa [manyKinds] using hj)] at h
      cases h
  safe := by
    simp [manyKinds, Safe, LSpec.safe, LSpec.outShape, size]
    exact fun _ _ => rfl
  hz := by
    intro j hj
    have hj : j ≤ 9 := hj
    have h1 : eq (add zero one) (zero : ℝ) = false := real_law.1
    have h2 : eq (add (add zero one) (add zero one)) (zero : ℝ) = false := by
      show decide ((0 + 1 + (0 + 1) : ℝ) = 0) = false
      norm_num
    interval_cases j <;> simp [manyKinds, uses, LSpec.isFlatten, List.takeWhile, h1, h2]
  dv := fun _ _ _ _ _ => rfl
  szp := by simp [manyKinds, outShapes, LSpec.outShape, size]

attribute [local irreducible] compiled NetM.compileBP NetM.trainOne netFn learnStep in
/-- The hypotheses of C67 and C68 are met: layers of nine kinds over the real numbers, trained twice with the same sample. -/
example : ∃ m w1 wb b c pv ts,
    compiled [1, 3, 3] manyKinds (worldPair [1, 3, 3] [3] 5 1) = .ok m w1 ∧ NetM.compileBP m w1 = .ok () wb ∧ HasParams wb m pv ∧ Trainable wb m ts ∧
    NetM.trainOne m 0 1 (1 / 2) (1 / 4) wb = .ok (absLoss ⟨[3], fun _ => 1⟩ (netFn manyKinds pv ⟨[1, 3, 3], fun _ => 5⟩)) b ∧
    NetM.trainOne m 0 1 (1 / 2) (1 / 4) b = .ok (absLoss ⟨[3], fun _ => 1⟩ (netFn manyKinds
      (learnStep (1 / 2) (1 / 4) manyKinds ts (pv, noChange manyKinds [1, 3, 3]) ⟨[1, 3, 3], fun _ => 5⟩ ⟨[3], fun _ => 1⟩).1 ⟨[1, 3, 3], fun _ => 5⟩)) c ∧
    TSteps (worldPair [1, 3, 3] [3] 5 1) w1 w1 wb m wb c := by
  have hlaw : eq (add zero one) (zero : ℝ) = false := real_law.1
  obtain ⟨m, w1, wb, e1, e2, s0, s1⟩ := worldPair_sample hlaw manyKinds_fits manyKinds_can [3] 5 1
  obtain ⟨m', w1', e1', H⟩ := C68_train_one (w0 := worldPair [1, 3, 3] [3] 5 1) hlaw manyKinds_fits manyKinds_can (by show 0 < 1 + _ + _; omega)
  rw [e1] at e1'
  cases e1'
  obtain ⟨wb', e2', _, H⟩ := H w1 .none
  rw [e2] at e2'
  cases e2'
  obtain ⟨⟨pv, ts, hp, ht, _⟩, H1⟩ := H wb _ .start
  have ho : ([3] : List Nat) = outShapes manyKinds [1, 3, 3] := by simp [manyKinds, outShapes, LSpec.outShape]
  obtain ⟨b, r1, p1, t1, l1, k1, _⟩ := H1 0 1 _ _ (1 / 2) (1 / 4) pv ts s0 s1 rfl ho hp ht
  obtain ⟨_, H2⟩ := H b _ l1
  obtain ⟨c, r2, _⟩ := H2 0 1 _ _ (1 / 2) (1 / 4) _ ts (k1 _ _ s0) (k1 _ _ s1) rfl ho p1 t1
  exact ⟨m, w1, wb, b, c, pv, ts, e1, e2, hp, ht, r1, r2,
    .more (.more .none (.train (.one s0 s1 (.inl ⟨_, r1⟩)))) (.train (.one (k1 _ _ s0) (k1 _ _ s1) (.inl ⟨_, r2⟩)))⟩

end Godeep.Props
