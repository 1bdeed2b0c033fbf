import Verif.Lemmas.GOne
import Verif.Spec.Learn
/-
  Any number of training steps of a sequential network of any layers.
-/
set_option linter.unusedSectionVars false

namespace Godeep
open Spec GoNum

variable {T : Type} [GoNum T]

section
variable {shape : List Nat} {ls : List (LSpec T)} {m : Nat} {d : CData T} {L : Nat → GLayer} {e : GData T} {w0 w1 wa wb a : World T}

theorem accepted_eq {xs ys : Nat → STensor T} {picks done rest : List Nat} (h : picks = done ++ rest)
    (hd : ∀ k ∈ done, (xs k).shape = shape ∧ (ys k).shape = outShapes ls shape)
    (hr : rest = [] ∨ ∃ k r, rest = k :: r ∧ ¬ ((xs k).shape = shape ∧ (ys k).shape = outShapes ls shape)) : accepted shape ls xs ys picks = done := by
  unfold accepted
  rw [h, List.takeWhile_append_of_pos (by simpa using hd)]
  rcases hr with rfl | ⟨k, r, rfl, hk⟩
  · simp
  · rw [List.takeWhile_cons_of_neg (by simpa using hk), List.append_nil]

theorem GLive.flags (N : GTNet shape ls m d L e w0 w1 wa wb) (A : GLive w0 w1 wa wb m ls.length d e a) {ts : List Bool} :
    Trainable a m ts ↔ ts = flagsOf d ls.length a := by
  have C := A.live.comp N.net.made
  have hc := C.chain
  have hl := C.last
  constructor
  · rintro ⟨l, h1, h2⟩
    rw [hl] at h1; cases h1
    exact h2.unique (trainableOf_chain hc)
  · rintro rfl
    exact ⟨_, hl, trainableOf_chain hc⟩

theorem ends_eq {α : Type} {o : Out (World T) α} {b w : World T} (h : Ends o b) (e : (∃ r, o = .ok r w) ∨ ∃ er, o = .err er w) : b = w := by
  rcases e with ⟨r, rfl⟩ | ⟨er, rfl⟩ <;> rcases h with ⟨r', h⟩ | ⟨er', h⟩ <;> cases h <;> rfl

/-- steps that are no training -/
theorem glive_other (N : GTNet shape ls m d L e w0 w1 wa wb) (A : GLive w0 w1 wa wb m ls.length d e a) {b : World T}
    (s : Other w0 w1 wa wb m a b) : GLive w0 w1 wa wb m ls.length d e b ∧ ∀ mv, GMom ls e a mv → GMom ls e b mv := by
  obtain ⟨k1, k2, k3, k4⟩ := N.built.cells
  obtain ⟨l1, l2, l3⟩ := N.built.le
  have hib := N.hi
  have M := N.net.made
  have han := A.ext.next
  cases s with
  | use s =>
    have t := touch_use M A.live s
    refine ⟨⟨A.live.touch M t, A.ext.trans t.ext, fun l h1 h2 => (t.layers l).trans (A.lay l h1 h2), t.nets.trans A.net,
      fun q h1 h2 h3 => ?_, fun k hk => ?_⟩, fun mv hm => hm.kept N t.ext.next fun q q1 q2 => ?_⟩
    · rw [t.val q (lt_of_lt_of_le h2 A.ext.next) (fun h => h3 ⟨by simp [h]⟩) (fun h => h3 ⟨by simp [h]⟩)
        (fun p hp y hy h => h3 (GTW.par hp hy h)), A.same q h1 h2 h3]
    · obtain ⟨r1, r2, r3, r4, r5⟩ := M.ref hk rfl
      rw [t.val _ (by have := A.live.ext.next; have := M.comp.hi; omega) r3 r4 r5, A.ref k hk]
    · refine t.val q (by omega) (fun h => ?_) (fun h => ?_) (fun p hp y hy h => ?_)
      · have := N.net.made.comp.inlt q h; omega
      · have := (N.ff_dst h).1; omega
      · have := (N.par_not hp hy h).2.2.1; omega
  | elsewhere h1 h2 h0 h3 h4 h5 h6 h7 =>
    have x1 : w1.nodeNext ≤ wb.nodeNext := (N.pre.live.ext.trans N.built.wide.ext).nodeNext
    have ins : ∀ {q}, w0.store.heap.next ≤ q → q < w1.store.heap.next → b.store.heap.val q = a.store.heap.val q := fun {q} q1 q2 =>
      h7 q fun ho => by rcases ho.1 with h | h <;> omega
    have hhi := M.comp.hi
    refine ⟨⟨⟨⟨le_trans A.live.ext.next h1, le_trans A.live.ext.nodeNext h2, fun n hn => ?_, fun n hn hf => ?_⟩, fun l hl1 hl2 => ?_, ?_,
      fun q c h => ?_, le_trans A.live.layerNext h0⟩,
      ⟨le_trans A.ext.next h1, le_trans A.ext.nodeNext h2, fun n hn => ?_, fun n hn hf => ?_⟩, fun l hl1 hl2 => ?_, ?_, fun q q1 q2 q3 => ?_, fun k hk => ?_⟩,
      fun mv hm => hm.kept N h1 fun q q1 q2 => ?_⟩
    · rw [h3 n (by omega), A.live.ext.kind n hn]
    · obtain ⟨y1, y2⟩ := A.live.ext.frozen n hn hf
      obtain ⟨z1, z2⟩ := h4 n (by omega) y1
      exact ⟨z1, by rw [z2, y2]⟩
    · rw [h5 l hl1 hl2, A.live.layers l hl1 hl2]
    · rw [h6, A.live.nets]
    · obtain ⟨c1, c2, _, _⟩ := M.comp.stage.keep q c h
      rw [h7 q fun ho => M.inside c1 c2 ho.1, A.live.kept q c h]
    · rw [h3 n hn, A.ext.kind n hn]
    · obtain ⟨y1, y2⟩ := A.ext.frozen n hn hf
      obtain ⟨z1, z2⟩ := h4 n hn y1
      exact ⟨z1, by rw [z2, y2]⟩
    · rw [h5 l hl1 hl2, A.lay l hl1 hl2]
    · rw [h6, A.net]
    · rw [h7 q fun ho => ?_, A.same q q1 q2 q3]
      rcases ho.2 with h | h <;> omega
    · obtain ⟨r1, r2, _⟩ := M.ref hk rfl
      rw [ins r1 (by omega), A.ref k hk]
    · exact h7 q fun ho => by rcases ho.2 with h | h <;> omega

theorem train_unequal {inputs targets : List Nat} (hlen : inputs.length ≠ targets.length) (epochs batch : Nat) (alpha momentum : T) (draw : Nat → Nat) :
    ∃ er, NetM.train m inputs targets epochs batch alpha momentum draw a = .err er a := by
  refine ⟨.size inputs.length targets.length, ?_⟩
  show (if inputs.length ≠ targets.length then _ else _ : Run T Unit) a = _
  rw [if_pos hlen]
  rfl

theorem GTNet.train_empty (N : GTNet shape ls m d L e w0 w1 wa wb) (A : GLive w0 w1 wa wb m ls.length d e a) {inputs targets : List Nat}
    (hlen : inputs.length = targets.length) (epochs batch : Nat) (alpha momentum : T) (draw : Nat → Nat) (h1 : inputs.length = 0)
    (h2 : drawn inputs.length epochs batch draw ≠ []) : NetM.train m inputs targets epochs batch alpha momentum draw a = .panic := by
  obtain ⟨n1, n2, n3, n4, n5, n6, n7, n8, n9, n10⟩ := A.sameNet N
  obtain ⟨p1, p2, p3⟩ := N.cellpos
  show (if inputs.length ≠ targets.length then _ else _ : Run T Unit) a = _
  rw [if_neg (by simpa using hlen)]
  show (match (a.nets m).bp with | none => _ | some _ => _ : Run T Unit) a = _
  rw [n5]
  show (Run.setValue (a.nets m).alpha alpha a).bind _ = _
  rw [n9, setValue_ok p2]
  show (Run.setValue (a.nets m).momentum momentum _).bind _ = _
  rw [n10, setValue_ok p3]
  show (if inputs.length = 0 ∧ (epochs * if batch = 0 then inputs.length else batch) ≠ 0 then _ else _ : Run T Unit) _ = _
  rw [if_pos]
  · rfl
  · refine ⟨h1, fun hz => h2 ?_⟩
    unfold drawn
    rw [hz]; rfl

/-- `Train` with samples of any shapes -/
theorem GTNet.train' (N : GTNet shape ls m d L e w0 w1 wa wb) (A : GLive w0 w1 wa wb m ls.length d e a) {mv pv : List (List (STensor T))}
    (hm : GMom ls e a mv) (hp : HasParams a m pv) {inputs targets : List Nat}
    {xs ys : Nat → STensor T} (hlen : inputs.length = targets.length)
    (hx : ∀ i t, inputs[i]? = some t → Sample w0 w1 wa wb a t (xs i)) (hy : ∀ i t, targets[i]? = some t → Sample w0 w1 wa wb a t (ys i))
    (epochs batch : Nat) (alpha momentum : T) (draw : Nat → Nat) (hne : inputs.length = 0 → drawn inputs.length epochs batch draw = []) :
    ∃ h', GCh d e a.store.heap h' ∧
      HasParams (atHeap a h') m (learnAll alpha momentum ls (flagsOf d ls.length a) xs ys
        (accepted shape ls xs ys (drawn inputs.length epochs batch draw)) (pv, mv)).1 ∧
      GMom ls e (atHeap a h') (learnAll alpha momentum ls (flagsOf d ls.length a) xs ys
        (accepted shape ls xs ys (drawn inputs.length epochs batch draw)) (pv, mv)).2 ∧
      ((accepted shape ls xs ys (drawn inputs.length epochs batch draw) = drawn inputs.length epochs batch draw ∧
        NetM.train m inputs targets epochs batch alpha momentum draw a = .ok () (atHeap a h')) ∨
       (accepted shape ls xs ys (drawn inputs.length epochs batch draw) ≠ drawn inputs.length epochs batch draw ∧
        ∃ er, NetM.train m inputs targets epochs batch alpha momentum draw a = .err er (atHeap a h'))) := by
  obtain ⟨done, rest, h', q1, q2, q3, q4, q5⟩ := N.train A ⟨mv, hm⟩ hlen hx hy epochs batch alpha momentum draw hne
  have hacc : accepted shape ls xs ys (drawn inputs.length epochs batch draw) = done := accepted_eq q1 q3 (by
    rcases q5 with ⟨r1, _⟩ | ⟨k, r, er, r1, r2, _⟩
    · exact Or.inl r1
    · exact Or.inr ⟨k, r, r1, r2⟩)
  rw [hacc]
  obtain ⟨q6, q7⟩ := q4 pv mv hp hm
  refine ⟨h', q2, q6, q7, ?_⟩
  rcases q5 with ⟨r1, r2⟩ | ⟨k, r, er, r1, r2, r3⟩
  · left; exact ⟨by rw [q1, r1, List.append_nil], r2⟩
  · right; exact ⟨by rw [q1, r1]; simp, er, r3⟩

/-- a state with a history -/
theorem learnt_live (N : GTNet shape ls m d L e w0 w1 wa wb) {mv : List (List (STensor T))} (s : Learnt w0 w1 wa wb m shape ls a mv) :
    GLive w0 w1 wa wb m ls.length d e a ∧ GMom ls e a mv := by
  induction s with
  | start => exact ⟨N.start, N.mom0⟩
  | @one a b mv pv ts tx ty x y alpha momentum _ sx sy hx hy hp ht he ih =>
    obtain ⟨A, hm⟩ := ih
    obtain ⟨h', r1, r2, r3, r4⟩ := N.trainOne A sx sy hx hy alpha momentum hp hm
    obtain rfl := ends_eq he (Or.inl ⟨_, r1⟩)
    rw [A.flags N] at ht
    subst ht
    exact ⟨A.change N r2, r4⟩
  | @reject a b mv tx ty x y alpha momentum _ sx sy hs he ih =>
    obtain ⟨A, hm⟩ := ih
    obtain ⟨er, h', r1, r2, r3, r4⟩ := N.trainOne_err A sx sy hs alpha momentum
    obtain rfl := ends_eq he (Or.inr ⟨_, r1⟩)
    exact ⟨A.change N r2, r4 mv hm⟩
  | @many a b mv pv ts inputs targets xs ys epochs batch alpha momentum draw _ hlen hx hy hp ht he ih =>
    obtain ⟨A, hm⟩ := ih
    rw [A.flags N] at ht
    subst ht
    by_cases hne : inputs.length = 0 → drawn inputs.length epochs batch draw = []
    · obtain ⟨h', r1, r2, r3, r4⟩ := N.train' A hm hp hlen hx hy epochs batch alpha momentum draw hne
      obtain rfl := ends_eq he (by rcases r4 with ⟨_, r⟩ | ⟨_, er, r⟩; exacts [Or.inl ⟨_, r⟩, Or.inr ⟨_, r⟩])
      exact ⟨A.change N r1, r3⟩
    · obtain ⟨h1, h2⟩ := Classical.not_imp.1 hne
      rw [N.train_empty A hlen epochs batch alpha momentum draw h1 h2] at he
      rcases he with ⟨r, he⟩ | ⟨er, he⟩ <;> cases he
  | @unequal a b mv inputs targets epochs batch alpha momentum draw _ hlen he ih =>
    obtain ⟨er, r⟩ := train_unequal (m := m) (a := a) hlen epochs batch alpha momentum draw
    obtain rfl := ends_eq he (Or.inr ⟨_, r⟩)
    exact ih
  | other _ s ih =>
    obtain ⟨A, hm⟩ := ih
    obtain ⟨B, hb⟩ := glive_other N A s
    exact ⟨B, hb _ hm⟩

/-- every state that is reached has a history -/
theorem learnt_step (N : GTNet shape ls m d L e w0 w1 wa wb) {mv : List (List (STensor T))} (hs : Learnt w0 w1 wa wb m shape ls a mv) {b : World T}
    (s : TStep w0 w1 wa wb m a b) : ∃ mv', Learnt w0 w1 wa wb m shape ls b mv' := by
  obtain ⟨A, hm⟩ := learnt_live N hs
  obtain ⟨pv, hp, _⟩ := A.live.someParams N.net.made
  have ht := (A.flags N).2 rfl
  cases s with
  | train s =>
    cases s with
    | @one tx ty x y alpha momentum sx sy he =>
      by_cases hsh : x.shape = shape ∧ y.shape = outShapes ls shape
      · exact ⟨_, .one hs sx sy hsh.1 hsh.2 hp ht he⟩
      · exact ⟨_, .reject hs sx sy hsh he⟩
    | @many inputs targets epochs batch alpha momentum draw hx hy he =>
      by_cases hlen : inputs.length = targets.length
      · obtain ⟨xs, hxs⟩ := choose_samples hx
        obtain ⟨ys, hys⟩ := choose_samples hy
        exact ⟨_, .many hs hlen hxs hys hp ht he⟩
      · exact ⟨_, .unequal hs hlen he⟩
  | other s => exact ⟨_, .other hs s⟩

theorem learnt_steps (N : GTNet shape ls m d L e w0 w1 wa wb) (s : TSteps w0 w1 wa wb m wb a) : ∃ mv, Learnt w0 w1 wa wb m shape ls a mv := by
  have hg : ∀ {x y : World T}, TSteps w0 w1 wa wb m x y → (∃ mv, Learnt w0 w1 wa wb m shape ls x mv) → ∃ mv, Learnt w0 w1 wa wb m shape ls y mv := by
    intro x y s
    induction s with
    | none => exact fun h => h
    | more _ h2 ih =>
      intro h
      obtain ⟨mv, h⟩ := ih h
      exact learnt_step N h h2
  exact hg s ⟨_, .start⟩

end
end Godeep
