import Verif.Props.Learn
/-
  C93: training with rate zero.
-/
set_option linter.unusedSectionVars false

namespace Godeep.Props
open Godeep Spec GoNum

variable {T : Type} [GoNum T]

/-- zero is neutral and absorbing, as it is for integers, wrapping integers and real numbers -/
structure ZeroLaws (T : Type) [GoNum T] : Prop where
  add : ∀ x : T, GoNum.add x zero = x
  left : ∀ x : T, GoNum.mul zero x = zero
  right : ∀ x : T, GoNum.mul x zero = zero

/-- the layer remembers the last change of its biases -/
def remembers : LSpec T → Bool
  | .conv .. | .deconv .. => true
  | _ => false

theorem sum1_zeros (h : ZeroLaws T) (l : List T) (hl : ∀ x ∈ l, x = zero) : sum1 l = zero := by
  cases l with
  | nil => rfl
  | cons v l =>
    have hv := hl v List.mem_cons_self
    subst hv
    have hl' : ∀ x ∈ l, x = zero := fun x hx => hl x (List.mem_cons_of_mem _ hx)
    clear hl
    show l.foldl GoNum.add zero = zero
    induction l with
    | nil => rfl
    | cons u l ih =>
      rw [List.foldl_cons, hl' u List.mem_cons_self, h.add]
      exact ih fun x hx => hl' x (List.mem_cons_of_mem _ hx)

theorem learned_zero (h : ZeroLaws T) {mo : T} (l : LSpec T) (hm : mo = zero ∨ remembers l = false) (ps ms : List (STensor T)) (d r x : STensor T) :
    l.learned zero mo ps ms d r x = ps := by
  have st : ∀ (a : STensor T) (f : List Nat → T), (∀ i, f i = a.get i) → (⟨a.shape, f⟩ : STensor T) = a := fun a f hf => by
    obtain ⟨s, g⟩ := a
    congr
    exact funext hf
  have s3 : ∀ a b c : T, b = zero → c = zero → sum1 [a, b, c] = a := fun a b c hb hc => by
    show GoNum.add (GoNum.add a b) c = a
    rw [hb, hc, h.add, h.add]
  have bias : mo = zero → ∀ b d m : STensor T, b.zip GoNum.add (biasStep zero mo d m) = b := fun e b d m => st b _ fun i => by
    subst e
    show GoNum.add (b.get i) (GoNum.add (GoNum.mul (d.get i) zero) (GoNum.mul (m.get i) zero)) = b.get i
    rw [h.right, h.right, h.add, h.add]
  unfold LSpec.learned
  split
  · congr 1
    · exact st _ _ fun i => s3 _ _ _ (h.left _) (by rw [h.right, h.left])
    · congr 1
      exact st _ _ fun i => s3 _ _ _ (h.left _) (h.right _)
  · have e : mo = zero := hm.resolve_right (by simp [remembers])
    congr 1
    · refine st _ _ fun i => s3 _ _ _ (sum1_zeros h _ fun v hv => ?_) (h.left _)
      obtain ⟨o, _, rfl⟩ := List.mem_map.1 hv
      rw [h.right, h.left]
    · congr 1
      exact bias e _ _ _
  · have e : mo = zero := hm.resolve_right (by simp [remembers])
    congr 1
    · refine st _ _ fun i => s3 _ _ _ (sum1_zeros h _ fun v hv => ?_) (h.left _)
      obtain ⟨o, _, rfl⟩ := List.mem_map.1 hv
      rw [h.right, h.left]
    · congr 1
      exact bias e _ _ _
  · rfl

theorem learn_zero (h : ZeroLaws T) {mo : T} (y : STensor T) : ∀ (ls : List (LSpec T)) (ts : List Bool) (pv mv : List (List (STensor T))) (x D : STensor T),
    (mo = zero ∨ ∀ l ∈ ls, remembers l = false) → pv.length = ls.length → mv.length = ls.length → ts.length = ls.length → (learn zero mo y ls ts pv mv x D).1 = pv
  | [], ts, pv, mv, x, D, _, hp, _, _ => by
    obtain rfl : pv = [] := by simpa using hp
    simp [learn]
  | l :: ls, [], _, _, _, _, _, _, _, ht => by simp at ht
  | l :: ls, _ :: _, [], _, _, _, _, hp, _, _ => by simp at hp
  | l :: ls, _ :: _, _ :: _, [], _, _, _, _, hm, _ => by simp at hm
  | l :: ls, t :: ts, p :: ps, q :: qs, x, D, hr, hp, hm, ht => by
    simp only [List.length_cons, Nat.add_right_cancel_iff] at hp hm ht
    unfold learn
    dsimp only
    rw [learn_zero h y ls ts ps qs _ _ (hr.imp id fun k l hl => k l (List.mem_cons_of_mem _ hl)) hp hm ht, learned_zero h l (hr.imp id fun k => k l List.mem_cons_self)]
    cases t <;> rfl

theorem learnAll_zero (h : ZeroLaws T) {mo : T} {ls : List (LSpec T)} (hr : mo = zero ∨ ∀ l ∈ ls, remembers l = false) {ts : List Bool} (ht : ts.length = ls.length)
    (xs ys : Nat → STensor T) (picks : List Nat) : ∀ pv mv : List (List (STensor T)), pv.length = ls.length → mv.length = ls.length →
      (learnAll zero mo ls ts xs ys picks (pv, mv)).1 = pv := by
  induction picks with
  | nil => exact fun pv mv _ _ => rfl
  | cons i picks ih =>
    intro pv mv hp hm
    obtain ⟨l1, l2⟩ := learn_length zero mo (ys i) ls ts pv mv (xs i) ((xs i).map (Activation.linear : Activation T).derive) ht hp hm
    exact (ih _ _ l1 l2).trans (learn_zero h (ys i) ls ts pv mv (xs i) _ hr hp hm ht)

/-- C93: A sequential model of layers of any kind (with `Fits` and `CanLearn`) has been compiled, used, compiled for training and used and trained in any
way.  Let zero be neutral for addition and absorbing for multiplication.  `TrainOne` and `Train` with rate zero, any samples and any numbers of epochs and batches then
leave all weights and biases as they are, if the momentum is zero too or no layer is a convolution.  `TrainOne` returns the loss of the sample. -/
theorem C93_rate_zero (h0 : ZeroLaws T) (hlaw : eq (add zero one) (zero : T) = false) {shape : List Nat} {ls : List (LSpec T)} (hfit : Fits ls shape)
    (hcan : CanLearn shape ls) {w0 : World T} (hpos : 0 < w0.store.heap.next) :
    ∃ m w1, compiled shape ls w0 = .ok m w1 ∧ ∀ wa, Steps w0 w1 m w1 wa →
      ∃ wb, NetM.compileBP m wa = .ok () wb ∧ ∀ a, TSteps w0 w1 wa wb m wb a → ∀ momentum pv, (momentum = zero ∨ ∀ l ∈ ls, remembers l = false) → HasParams a m pv →
        (∀ tx ty x y, Sample w0 w1 wa wb a tx x → Sample w0 w1 wa wb a ty y → x.shape = shape → y.shape = outShapes ls shape →
          ∃ b, NetM.trainOne m tx ty zero momentum a = .ok (absLoss y (netFn ls pv x)) b ∧ HasParams b m pv) ∧
        ∀ inputs targets (xs ys : Nat → STensor T) epochs batch draw, inputs ≠ [] → inputs.length = targets.length →
          (∀ i t, inputs[i]? = some t → Sample w0 w1 wa wb a t (xs i)) → (∀ i t, targets[i]? = some t → Sample w0 w1 wa wb a t (ys i)) →
          ∃ b, (NetM.train m inputs targets epochs batch zero momentum draw a = .ok () b ∨ ∃ er, NetM.train m inputs targets epochs batch zero momentum draw a = .err er b) ∧
            HasParams b m pv := by
  obtain ⟨m, w1, e1, d, L, D, H⟩ := gprepared (shape := shape) hlaw hfit hcan hpos
  refine ⟨m, w1, e1, fun wa s => ?_⟩
  obtain ⟨wb, e, e2, N⟩ := H wa s
  refine ⟨wb, e2, fun a hs momentum pv hmo hp => ?_⟩
  obtain ⟨mv, hs⟩ := learnt_steps N hs
  obtain ⟨A, hm⟩ := learnt_live N hs
  have hlen : (flagsOf d ls.length a).length = ls.length := by simp [flagsOf]
  have hpl : pv.length = ls.length := by
    have := ((A.params N).1 hp).length_eq
    rw [N.net.ps, List.length_map, List.length_range] at this
    exact this.symm
  refine ⟨fun tx ty x y sx sy hx hy => ?_, fun inputs targets xs ys epochs batch draw hin hl hx hy => ?_⟩
  · obtain ⟨h', r1, r2, r3, r4⟩ := N.trainOne A sx sy hx hy zero momentum hp hm
    refine ⟨_, r1, ?_⟩
    have := learn_zero h0 (mo := momentum) y ls (flagsOf d ls.length a) pv mv x (x.map (Activation.linear : Activation T).derive) hmo hpl hm.len hlen
    have e3 : (learnStep zero momentum ls (flagsOf d ls.length a) (pv, mv) x y).1 = pv := this
    rw [e3] at r3
    exact r3
  · have hpos : 0 < inputs.length := List.length_pos_iff.2 hin
    obtain ⟨h', r1, r2, r3, r4⟩ := N.train' A hm hp hl hx hy epochs batch zero momentum draw (fun h => by omega)
    rw [learnAll_zero h0 hmo hlen xs ys _ pv mv hpl hm.len] at r2
    rcases r4 with ⟨_, r⟩ | ⟨_, er, r⟩
    · exact ⟨_, .inl r, r2⟩
    · exact ⟨_, .inr ⟨er, r⟩, r2⟩

/-- C93 is not empty: real numbers have the laws, and `manyKinds` is a model with layers of nine kinds -/
theorem C93_example : ZeroLaws ℝ ∧ ∃ m w1 wb b pv, compiled [1, 3, 3] manyKinds (worldPair [1, 3, 3] [3] 5 1) = .ok m w1 ∧ NetM.compileBP m w1 = .ok () wb ∧
    HasParams wb m pv ∧ (∃ loss, NetM.trainOne m 0 1 0 0 wb = .ok loss b) ∧ HasParams b m pv := by
  have h0 : ZeroLaws ℝ := ⟨fun x => add_zero x, fun x => zero_mul x, fun x => mul_zero x⟩
  have hlaw : eq (add zero one) (zero : ℝ) = false := real_law.1
  obtain ⟨m, w1, wb, e1, e2, s0, s1⟩ := worldPair_sample hlaw manyKinds_fits manyKinds_can [3] 5 1
  obtain ⟨m', w1', e1', H⟩ := C93_rate_zero (w0 := worldPair [1, 3, 3] [3] 5 1) h0 hlaw manyKinds_fits manyKinds_can (by show 0 < 1 + _ + _; omega)
  obtain ⟨m'', w1'', e1'', K⟩ := C68_train_one (w0 := worldPair [1, 3, 3] [3] 5 1) hlaw manyKinds_fits manyKinds_can (by show 0 < 1 + _ + _; omega)
  rw [e1] at e1' e1''
  cases e1'
  cases e1''
  obtain ⟨wb', e2', H⟩ := H w1 .none
  obtain ⟨wb'', e2'', _, K⟩ := K w1 .none
  rw [e2] at e2' e2''
  cases e2'
  cases e2''
  obtain ⟨⟨pv, ts, hp, ht, _⟩, _⟩ := K wb _ .start
  have ho : ([3] : List Nat) = outShapes manyKinds [1, 3, 3] := by simp [manyKinds, outShapes, LSpec.outShape]
  obtain ⟨b, r, p⟩ := (H wb .none 0 pv (.inl rfl) hp).1 0 1 _ _ s0 s1 rfl ho
  exact ⟨h0, m, w1, wb, b, pv, e1, e2, hp, ⟨_, r⟩, p⟩

end Godeep.Props
