import Verif.Lemmas.SideProg
/-
  Programs of several parts: the layers and models of each part, with the tensors inside them, stay apart from those of the
  other parts and from the tensors that the parts exchange.
-/
set_option linter.unusedSectionVars false

namespace Godeep
open Spec GoNum

variable {T : Type} [GoNum T] {α β : Type}

namespace Side
variable {b : Bool} {g h g' g1 g2 u u1 : Sd} {w w' w1 : World T}

/-- nothing in common but the nil pointer -/
structure Apart (g h : Sd) : Prop where
  cell : ∀ q, g.cell q → h.cell q → q = 0
  node : ∀ q, g.node q → ¬ h.node q
  layer : ∀ q, g.layer q → ¬ h.layer q
  net : ∀ q, g.net q → ¬ h.net q

theorem Apart.symm (a : Apart g h) : Apart h g :=
  ⟨fun q x y => a.cell q y x, fun q x y => a.node q y x, fun q x y => a.layer q y x, fun q x y => a.net q y x⟩

/-- the part is the same in both states -/
structure Agree (g : Sd) (w w' : World T) : Prop where
  cell : ∀ q, g.cell q → q ≠ 0 → w'.store.heap.val q = w.store.heap.val q
  node : ∀ q, g.node q → w'.store.nodes q = w.store.nodes q
  layer : ∀ q, g.layer q → w'.layers q = w.layers q
  net : ∀ q, g.net q → w'.nets q = w.nets q
  fuel : w.layerNext ≤ w'.layerNext

theorem Agree.refl (g : Sd) (w : World T) : Agree g w w := ⟨fun _ _ _ => rfl, fun _ _ => rfl, fun _ _ => rfl, fun _ _ => rfl, le_refl _⟩

theorem Agree.trans (a : Agree g w w') (c : Agree g w' w1) : Agree g w w1 :=
  ⟨fun q x y => (c.cell q x y).trans (a.cell q x y), fun q x => (c.node q x).trans (a.node q x), fun q x => (c.layer q x).trans (a.layer q x),
    fun q x => (c.net q x).trans (a.net q x), le_trans a.fuel c.fuel⟩

/-- what another part does leaves this one -/
theorem frame (s : Step g w g1 w1) (hi : In false h w) (a : Apart g h) : In false h w1 ∧ Apart g1 h ∧ Agree h w w1 := by
  have en : ∀ n, h.node n → w1.store.nodes n = w.store.nodes n := fun n hn => s.node n (hi.node n hn) fun x => a.node n x hn
  have el : ∀ n, h.layer n → w1.layers n = w.layers n := fun n hn => s.layer n (hi.layer n hn) fun x => a.layer n x hn
  have em : ∀ n, h.net n → w1.nets n = w.nets n := fun n hn => s.net n (hi.net n hn) fun x => a.net n x hn
  refine ⟨⟨lt_of_lt_of_le hi.next s.ncell, hi.zero, fun q x => lt_of_lt_of_le (hi.cell q x) s.ncell, fun q x => lt_of_lt_of_le (hi.node q x) s.nnode,
    fun q x => lt_of_lt_of_le (hi.layer q x) s.nlayer, fun q x => lt_of_lt_of_le (hi.net q x) s.nnet, fun n hn => ?_, fun n hn => ?_, fun n hn => ?_, fun e => (by cases e)⟩,
    ⟨fun q x y => ?_, fun q x y => ?_, fun q x y => ?_, fun q x y => ?_⟩, ⟨fun q x y => ?_, en, el, em, s.nlayer⟩⟩
  · rw [en n hn]; exact hi.nodes n hn
  · rw [el n hn]; exact hi.layers n hn
  · rw [em n hn]; exact hi.nets n hn
  · exact (s.gcell q x).elim (fun x => a.cell q x y) fun x => absurd (hi.cell q y) (by omega)
  · exact (s.gnode q x).elim (fun x => a.node q x y) fun x => absurd (hi.node q y) (by omega)
  · exact (s.glayer q x).elim (fun x => a.layer q x y) fun x => absurd (hi.layer q y) (by omega)
  · exact (s.gnet q x).elim (fun x => a.net q x y) fun x => absurd (hi.net q y) (by omega)
  · exact s.cell q (hi.cell q x) fun z => y (a.cell q z x)

/-- `p i` belongs to part `i`, `u` are the tensors and numbers that the parts exchange -/
structure Ok (e : Nat → Env) (w : World T) (p : Nat → Sd) (u : Sd) : Prop where
  side : ∀ i, In false (p i) w
  user : In false u w
  sides : ∀ i j, i ≠ j → Apart (p i) (p j)
  users : ∀ i, Apart (p i) u
  tensors : ∀ i, ∀ t ∈ (e i).tensors, u.node t
  scalars : ∀ i, ∀ q ∈ (e i).scalars, u.cell q
  layers : ∀ i, ∀ l ∈ (e i).layers, (p i).layer l
  models : ∀ i, ∀ m ∈ (e i).models, (p i).net m

/-- part `i` becomes `g` -/
def put (p : Nat → Sd) (i : Nat) (g : Sd) : Nat → Sd := fun j => if j = i then g else p j

variable {e : Nat → Env} {p : Nat → Sd}

theorem put_self (i : Nat) : put p i g i = g := if_pos rfl

theorem put_ne {i j : Nat} (h : j ≠ i) : put p i g j = p j := if_neg h

theorem step_side (ok : Ok e w p u) {i : Nat} (l : Le (p i) g) (s : Step (p i) w g w1) (hi : In false g w1) :
    Ok e w1 (put p i g) u ∧ (∀ j, j ≠ i → Agree (p j) w w1) ∧ Agree u w w1 := by
  have fo : ∀ j, j ≠ i → In false (p j) w1 ∧ Apart g (p j) ∧ Agree (p j) w w1 := fun j hj => frame s (ok.side j) (ok.sides i j (Ne.symm hj))
  have fu := frame s ok.user (ok.users i)
  refine ⟨⟨fun j => ?_, fu.1, fun j k hjk => ?_, fun j => ?_, ok.tensors, ok.scalars, fun j k hk => ?_, fun j k hk => ?_⟩, fun j hj => (fo j hj).2.2, fu.2.2⟩
  · by_cases hj : j = i
    · rw [hj, put_self]; exact hi
    · rw [put_ne hj]; exact (fo j hj).1
  · by_cases hj : j = i
    · have hk : k ≠ i := fun hk => hjk (hj.trans hk.symm)
      rw [hj, put_self, put_ne hk]; exact (fo k hk).2.1
    · by_cases hk : k = i
      · rw [hk, put_self, put_ne hj]; exact (fo j hj).2.1.symm
      · rw [put_ne hj, put_ne hk]; exact ok.sides j k hjk
  · by_cases hj : j = i
    · rw [hj, put_self]; exact fu.2.1
    · rw [put_ne hj]; exact ok.users j
  · by_cases hj : j = i
    · subst hj; rw [put_self]; exact l.layer _ (ok.layers _ k hk)
    · rw [put_ne hj]; exact ok.layers j k hk
  · by_cases hj : j = i
    · subst hj; rw [put_self]; exact l.net _ (ok.models _ k hk)
    · rw [put_ne hj]; exact ok.models j k hk

theorem step_user (ok : Ok e w p u) (l : Le u u1) (s : Step u w u1 w1) (hi : In false u1 w1) : Ok e w1 p u1 ∧ ∀ j, Agree (p j) w w1 := by
  have fo : ∀ j, In false (p j) w1 ∧ Apart u1 (p j) ∧ Agree (p j) w w1 := fun j => frame s (ok.side j) (ok.users j).symm
  exact ⟨⟨fun j => (fo j).1, hi, ok.sides, fun j => (fo j).2.1.symm, fun i t ht => l.node _ (ok.tensors i t ht), fun i t ht => l.cell _ (ok.scalars i t ht), ok.layers, ok.models⟩,
    fun j => (fo j).2.2⟩

theorem ok_user (ok : Ok e w p u) (i : Nat) {r : Ret} (hr : RetU u r) : Ok (share e i r) w p u := by
  cases r with
  | nothing =>
    have : share e i .nothing = e := by
      funext j
      unfold share
      split <;> rfl
    rw [this]; exact ok
  | tensor n =>
    have : share e i (.tensor n) = fun j => { e j with tensors := n :: (e j).tensors } := by
      funext j
      unfold share
      split <;> rfl
    rw [this]
    exact ⟨ok.side, ok.user, ok.sides, ok.users, fun j t ht => (List.mem_cons.1 ht).elim (fun x => by rw [x]; exact hr) (ok.tensors j t), ok.scalars, ok.layers, ok.models⟩
  | scalar n =>
    have : share e i (.scalar n) = fun j => { e j with scalars := n :: (e j).scalars } := by
      funext j
      unfold share
      split <;> rfl
    rw [this]
    exact ⟨ok.side, ok.user, ok.sides, ok.users, ok.tensors, fun j t ht => (List.mem_cons.1 ht).elim (fun x => by rw [x]; exact hr) (ok.scalars j t), ok.layers, ok.models⟩
  | layer n => exact hr.elim
  | model n => exact hr.elim

theorem ok_side (ok : Ok e w p u) (i : Nat) {r : Ret} (hr : RetS (p i) r) : Ok (share e i r) w p u := by
  cases r with
  | nothing => exact ok_user ok i trivial
  | tensor n => exact hr.elim
  | scalar n => exact hr.elim
  | layer n =>
    refine ⟨ok.side, ok.user, ok.sides, ok.users, fun j t ht => ?_, fun j t ht => ?_, fun j t ht => ?_, fun j t ht => ?_⟩
    all_goals
      unfold share at ht
      split at ht
    · exact ok.tensors j t ht
    · exact ok.tensors j t ht
    · exact ok.scalars j t ht
    · exact ok.scalars j t ht
    · next hj => subst hj; exact (List.mem_cons.1 ht).elim (fun x => by rw [x]; exact hr) (ok.layers j t)
    · exact ok.layers j t ht
    · exact ok.models j t ht
    · exact ok.models j t ht
  | model n =>
    refine ⟨ok.side, ok.user, ok.sides, ok.users, fun j t ht => ?_, fun j t ht => ?_, fun j t ht => ?_, fun j t ht => ?_⟩
    all_goals
      unfold share at ht
      split at ht
    · exact ok.tensors j t ht
    · exact ok.tensors j t ht
    · exact ok.scalars j t ht
    · exact ok.scalars j t ht
    · exact ok.layers j t ht
    · exact ok.layers j t ht
    · next hj => subst hj; exact (List.mem_cons.1 ht).elim (fun x => by rw [x]; exact hr) (ok.models j t)
    · exact ok.models j t ht

/-- the other parts stay as they are -/
def Keeps (i : Nat) (p : Nat → Sd) (w : World T) (p1 : Nat → Sd) (w1 : World T) : Prop := ∀ j, j ≠ i → p1 j = p j ∧ Agree (p j) w w1

variable [Bin T]

theorem ok_act (ok : Ok e w p u) (i : Nat) (c : Act T) (hu : c.uses (e i)) (hs : ∀ q ∈ c.scalars, q ∈ (e i).scalars) :
    match c.run w with
    | .ok r w1 => ∃ p1 u1, Ok (share e i r) w1 p1 u1 ∧ Keeps i p w p1 w1
    | .err _ w1 => ∃ p1 u1, Ok e w1 p1 u1 ∧ Keeps i p w p1 w1
    | .panic => True := by
  by_cases hd : data c
  · have H := user_act c hd hu hs (ok.tensors i) (ok.scalars i) w ok.user
    cases he : c.run w with
    | ok r w1 =>
      rw [he] at H
      obtain ⟨u1, l, s, hi, hr⟩ := H
      exact ⟨p, u1, ok_user (step_user ok l s hi).1 i hr, fun j _ => ⟨rfl, (step_user ok l s hi).2 j⟩⟩
    | err _ w1 =>
      rw [he] at H
      obtain ⟨u1, l, s, hi⟩ := H
      exact ⟨p, u1, (step_user ok l s hi).1, fun j _ => ⟨rfl, (step_user ok l s hi).2 j⟩⟩
    | panic => trivial
  by_cases hp : ∃ m t, c = .predict m t
  · obtain ⟨m, t, rfl⟩ := hp
    have H := cl_predictOut (ok.models i m hu.1) t w (ok.side i)
    have e0 : (Act.predict m t : Act T).run w = ((predictOut m t w).bind NetM.copyTensor).bind fun n w => .ok (.tensor n) w := by
      rw [← predict_split]; rfl
    rw [e0]
    cases he : predictOut m t w with
    | ok o w1 =>
      rw [he] at H
      obtain ⟨g1, l, s, hi, _⟩ := H
      obtain ⟨o1, k1, _⟩ := step_side ok l s hi
      have H2 := Cl.copyTensor (b := false) o w1 o1.user
      show match (NetM.copyTensor o w1).bind fun n w => Out.ok (Ret.tensor n) w with
        | .ok r w1 => ∃ p1 u1, Ok (share e i r) w1 p1 u1 ∧ Keeps i p w p1 w1
        | .err _ w1 => ∃ p1 u1, Ok e w1 p1 u1 ∧ Keeps i p w p1 w1
        | .panic => True
      have keep : ∀ {w2 : World T}, (∀ j, Agree (put p i g1 j) w1 w2) → Keeps i p w (put p i g1) w2 := fun h j hj =>
        ⟨put_ne hj, (k1 j hj).trans (by have := h j; rwa [put_ne hj] at this)⟩
      cases he2 : NetM.copyTensor o w1 with
      | ok n w2 =>
        rw [he2] at H2
        obtain ⟨u1, l, s, hi, hn⟩ := H2
        exact ⟨_, u1, ok_user (step_user o1 l s hi).1 i hn, keep (step_user o1 l s hi).2⟩
      | err _ w2 =>
        rw [he2] at H2
        obtain ⟨u1, l, s, hi⟩ := H2
        exact ⟨_, u1, (step_user o1 l s hi).1, keep (step_user o1 l s hi).2⟩
      | panic => trivial
    | err _ w1 =>
      rw [he] at H
      obtain ⟨g1, l, s, hi⟩ := H
      exact ⟨_, u, (step_side ok l s hi).1, fun j hj => ⟨put_ne hj, (step_side ok l s hi).2.1 j hj⟩⟩
    | panic => trivial
  · have H := side_act c hd (fun m t h => hp ⟨m, t, h⟩) hu (ok.layers i) (ok.models i) w (ok.side i)
    cases he : c.run w with
    | ok r w1 =>
      rw [he] at H
      obtain ⟨g1, l, s, hi, hr⟩ := H
      exact ⟨_, u, ok_side (step_side ok l s hi).1 i (by rw [put_self]; exact hr), fun j hj => ⟨put_ne hj, (step_side ok l s hi).2.1 j hj⟩⟩
    | err _ w1 =>
      rw [he] at H
      obtain ⟨g1, l, s, hi⟩ := H
      exact ⟨_, u, (step_side ok l s hi).1, fun j hj => ⟨put_ne hj, (step_side ok l s hi).2.1 j hj⟩⟩
    | panic => trivial

omit [Bin T] in
theorem ok_start (rnd : Nat → Nat → T) : Ok (fun _ => {}) (start rnd) (fun _ => ⟨fun q => q = 0, fun _ => False, fun _ => False, fun _ => False⟩)
    ⟨fun q => q = 0, fun _ => False, fun _ => False, fun _ => False⟩ := by
  have hi : In false ⟨fun q => q = 0, fun _ => False, fun _ => False, fun _ => False⟩ (start rnd) :=
    ⟨Nat.one_pos, rfl, fun q hq => (show q < 1 by rw [hq]; exact Nat.one_pos), fun _ h => h.elim, fun _ h => h.elim, fun _ h => h.elim, fun _ h => h.elim, fun _ h => h.elim, fun _ h => h.elim, fun e => (by cases e)⟩
  refine ⟨fun _ => hi, hi, fun _ _ _ => ⟨fun _ h _ => h, fun _ h => h.elim, fun _ h => h.elim, fun _ h => h.elim⟩, fun _ => ⟨fun _ h _ => h, fun _ h => h.elim, fun _ h => h.elim, fun _ h => h.elim⟩, ?_, ?_, ?_, ?_⟩
  all_goals exact fun _ _ h => absurd h List.not_mem_nil

/-- parts that make no calls stay as they are -/
theorem ok_turns {who : Nat → Prop} {e0 : Nat → Env} {w0 : World T} (ht : Turns who e0 w0 e w) {p0 : Nat → Sd} {u0 : Sd} (ok : Ok e0 w0 p0 u0) :
    ∃ p u, Ok e w p u ∧ ∀ i, ¬ who i → p i = p0 i ∧ Agree (p0 i) w0 w := by
  induction ht with
  | refl => exact ⟨p0, u0, ok, fun _ _ => ⟨rfl, Agree.refl _ _⟩⟩
  | @ok e w0 w w' i c r _ hw hu hs hr ih =>
    obtain ⟨p, u, o, k⟩ := ih ok
    have H := ok_act o i c hu hs
    rw [hr] at H
    obtain ⟨p1, u1, o1, k1⟩ := H
    refine ⟨p1, u1, o1, fun j hj => ?_⟩
    have hne : j ≠ i := fun h => hj (h ▸ hw)
    exact ⟨(k1 j hne).1.trans (k j hj).1, (k j hj).2.trans ((k j hj).1 ▸ (k1 j hne).2)⟩
  | @err e w0 w w' i c x _ hw hu hs hr ih =>
    obtain ⟨p, u, o, k⟩ := ih ok
    have H := ok_act o i c hu hs
    rw [hr] at H
    obtain ⟨p1, u1, o1, k1⟩ := H
    refine ⟨p1, u1, o1, fun j hj => ?_⟩
    have hne : j ≠ i := fun h => hj (h ▸ hw)
    exact ⟨(k1 j hne).1.trans (k j hj).1, (k j hj).2.trans ((k j hj).1 ▸ (k1 j hne).2)⟩

end Side
end Godeep
