import Verif.Lemmas.LFF
import Verif.Lemmas.JBuild
import Verif.Spec.Nested
/-
  `Build` and `Compile` of a chain of layers with connected input layers in it.
-/
set_option linter.unusedSectionVars false

namespace Godeep
open Spec GoNum

variable {T : Type} [GoNum T]

/-- how many of the first `n` layers are connected input layers -/
def links (lk : Nat → Bool) : Nat → Nat
  | 0 => 0
  | n + 1 => links lk n + (if lk n then 1 else 0)

theorem Refs.put {L : Nat → Prop} {w w' : World T} (R : Refs L w w') {p : Ptr} (hp : w.store.heap.next ≤ p) (v : T) : Refs L w (putW p v w') := by
  refine ⟨⟨R.grow.next, fun q hq hc => ?_, R.grow.nodeNext, R.grow.kind, R.grow.frozen, R.grow.layers, R.grow.layerNext, R.grow.nets, R.grow.netNext, R.grow.ctx⟩, R.same, R.nodes⟩
  show (w'.store.heap.put p v).val q = _
  simp only [Heap.put]
  rw [if_neg (by omega)]
  exact R.grow.val q hq hc

/-- layers `b .. b + n` before `Build`, the last one already referred to; those with `lk` are connected input layers -/
structure LToBuild (b n : Nat) (lk : Nat → Bool) (w : World T) : Prop where
  pos : 0 < w.store.heap.next
  kind : (w.layers b).kind = .input
  pre : (w.layers b).pre = none
  kinds : ∀ k, k < n → (if lk k then (w.layers (b + 1 + k)).kind = .input else ∃ s : LSpec T, (w.layers (b + 1 + k)).kind = s.kind) ∧
    (w.layers (b + 1 + k)).pre = some (b + k)
  build : ∀ k, k ≤ n → (w.layers (b + k)).build = false
  refs : ∀ k, k < n → (w.layers (b + k)).ref = 0
  ref : 0 < (w.layers (b + n)).ref ∧ (w.layers (b + n)).ref < w.store.heap.next ∧
    w.store.heap.val (w.layers (b + n)).ref = add zero one

theorem LToBuild.lower {b n : Nat} {lk : Nat → Bool} {w w' : World T} (S : LToBuild b (n + 1) lk w) (R : Refs (fun l => l = b + n ∨ l = b + n + 1) w w')
    (e : w'.layers (b + n) = { w.layers (b + n) with ref := w.store.heap.next })
    (hn : w'.store.heap.next = w.store.heap.next + 1) (hv : w'.store.heap.val w.store.heap.next = add zero one) :
    LToBuild b n lk w' := by
  have hk : ∀ k, k < n → w'.layers (b + k) = w.layers (b + k) := fun k hk => R.grow.layers _ (by omega)
  have hkp : ∀ l, (w'.layers l).kind = (w.layers l).kind ∧ (w'.layers l).pre = (w.layers l).pre := fun l => by
    obtain ⟨_, _, _, h⟩ := R.same l
    rw [h]; exact ⟨rfl, rfl⟩
  refine ⟨by omega, ?_, ?_, fun k kn => ?_, fun k kn => ?_, fun k kn => ?_, ?_⟩
  · exact (hkp b).1.trans S.kind
  · exact (hkp b).2.trans S.pre
  · rw [(hkp _).1, (hkp _).2]; exact S.kinds k (by omega)
  · rcases Nat.lt_or_ge k n with h | h
    · rw [hk k h]; exact S.build k (by omega)
    · have : k = n := by omega
      subst this
      rw [e]; exact S.build k (by omega)
  · rw [hk k kn]; exact S.refs k (by omega)
  · rw [e]; exact ⟨S.pos, by simp only; omega, hv⟩

/-- `Build` of a connected input layer -/
theorem build_unfold_link {f l p : Nat} {w : World T} (hb : (w.layers l).build = false)
    (hk : (w.layers l).kind = .input) (hp : (w.layers l).pre = some p) :
    LayerM.build (f + 1) l w = ((do
      LayerM.preBuild (LayerM.build f) l
      let y ← Run.layer l
      let v ← Run.value y.ref
      LayerM.addRef p v
      let r ← LayerM.getRef p
      Run.modify l fun y => { y with ref := r }
      let x ← Run.layer l
      return x.index : Run T Nat)) (updL l (fun x => { x with build := true }) w) := by
  rw [LayerM.build]
  show (if (w.layers l).build then _ else _ : Run T Nat) w = _
  rw [hb]
  show (match (w.layers l).kind with
      | .concat l1 l2 _ => _
      | .dense | .conv .. | .deconv .. => _
      | .input => _
      | _ => _ : Run T Nat) _ = _
  rw [hk, hp]
  rfl

/-- what `Build` of such a chain has done -/
structure BuiltL (b n : Nat) (lk : Nat → Bool) (w w' : World T) : Prop where
  refs : Refs (fun l => b ≤ l ∧ l ≤ b + n) w w'
  at_ : ∀ k ≤ n, (w'.layers (b + k)).build = true ∧ 0 < (w'.layers (b + k)).ref ∧ (w'.layers (b + k)).ref < w'.store.heap.next ∧
    ∃ j ≤ links lk n, w'.store.heap.val (w'.layers (b + k)).ref = ones j
  new : ∀ k ≤ n, w.store.heap.next ≤ (w'.layers (b + k)).ref ∨ (w'.layers (b + k)).ref = (w.layers (b + n)).ref

/-- `Build` of such a chain: every layer gets a reference counter, a connected input layer that of the layer before it -/
theorem build_items (hlaw : eq (add zero one) (zero : T) = false) {b n f : Nat} {lk : Nat → Bool} {w : World T} (S : LToBuild b n lk w)
    (hf : n < f) :
    wp True (LayerM.build f (b + n)) (fun _ w' => BuiltL b n lk w w') w := by
  induction n generalizing f w with
  | zero =>
    obtain ⟨f, rfl⟩ : ∃ g, f = g + 1 := ⟨f - 1, by omega⟩
    simp only [Nat.add_zero]
    obtain ⟨r1, r2, r3⟩ := S.ref
    simp only [Nat.add_zero] at r1 r2 r3
    have hb := S.build 0 (le_refl _)
    simp only [Nat.add_zero] at hb
    have e : LayerM.build (f + 1) b w = .ok (w.layers b).index (updL b (fun x => { x with build := true }) w) := by
      rw [LayerM.build]
      show (if (w.layers b).build then _ else _ : Run T Nat) w = _
      rw [hb]
      show (match (w.layers b).kind with
          | .concat l1 l2 _ => _
          | .dense | .conv .. | .deconv .. => _
          | .input => _
          | _ => _ : Run T Nat) _ = _
      rw [S.kind, S.pre]
      set w1 := updL b (fun x => { x with build := true }) w with hw1
      have e1 : LayerM.preBuild (LayerM.build f) b w1 = .ok () w1 := by
        unfold LayerM.preBuild
        show (LayerM.getRef b w1).bind _ = _
        rw [getRef_old (by rw [hw1, updL_same]; exact r1)]
        show (match (w1.layers b).pre with
          | none => _
          | some p => _ : Run T Unit) w1 = _
        have hp1 : (w1.layers b).pre = none := by rw [hw1, updL_same]; exact S.pre
        rw [hp1]
        show (Run.value (w1.layers b).ref w1).bind _ = _
        have hr1 : (w1.layers b).ref = (w.layers b).ref := by rw [hw1, updL_same]
        rw [hr1, value_ok r1]
        show (if eq (w.store.heap.val (w.layers b).ref) zero then _ else _ : Run T Unit) w1 = _
        rw [r3, hlaw]
        rfl
      show (LayerM.preBuild (LayerM.build f) b w1).bind _ = _
      rw [e1]
      show Out.ok (w1.layers b).index w1 = _
      rw [hw1, updL_same]
    refine wp_of_ok e ⟨refs_updL ⟨le_refl _, le_refl _⟩ w fun x => ⟨_, _, _, rfl⟩, ?_, ?_⟩
    · intro k hk
      have : k = 0 := by omega
      subst this
      simp only [Nat.add_zero]
      rw [updL_same]
      exact ⟨rfl, r1, r2, 0, le_refl _, r3⟩
    · intro k hk
      have : k = 0 := by omega
      subst this
      simp only [Nat.add_zero]
      rw [updL_same]
      exact Or.inr rfl
  | succ n ih =>
    obtain ⟨f, rfl⟩ : ∃ g, f = g + 1 := ⟨f - 1, by omega⟩
    obtain ⟨hk, hp⟩ := S.kinds n (by omega)
    rw [show b + (n + 1) = b + n + 1 by omega]
    rw [show b + 1 + n = b + n + 1 by omega] at hk hp
    obtain ⟨r1, r2, r3⟩ := S.ref
    rw [show b + (n + 1) = b + n + 1 by omega] at r1 r2 r3
    have hbl := S.build (n + 1) (le_refl _)
    rw [show b + (n + 1) = b + n + 1 by omega] at hbl
    obtain ⟨l, hl⟩ : ∃ l, l = b + n + 1 := ⟨_, rfl⟩
    rw [← hl] at hk hp r1 r2 r3 hbl ⊢
    obtain ⟨w1, hw1⟩ : ∃ w1, w1 = updL l (fun x => { x with build := true }) w := ⟨_, rfl⟩
    have R1 : Refs (fun k => k = b + n ∨ k = b + n + 1) w w1 := by rw [hw1]; exact refs_updL (Or.inr hl) w fun x => ⟨_, _, _, rfl⟩
    have hl1 : w1.layers l = { w.layers l with build := true } := by rw [hw1, updL_same]
    have hs1 : w1.store = w.store := by rw [hw1]; rfl
    -- the part that both kinds of layers share
    have core : wp True (LayerM.preBuild (LayerM.build f) l) (fun _ w4 => ∃ i, w4.layers l = { w.layers l with build := true, index := i } ∧
        Refs (fun k => b ≤ k ∧ k ≤ l) w w4 ∧ w4.store.heap.val (w.layers l).ref = add zero one ∧
        ∀ k ≤ n, (w4.layers (b + k)).build = true ∧ 0 < (w4.layers (b + k)).ref ∧ (w4.layers (b + k)).ref < w4.store.heap.next ∧
          (∃ j ≤ links lk n, w4.store.heap.val (w4.layers (b + k)).ref = ones j) ∧ w.store.heap.next ≤ (w4.layers (b + k)).ref) w1 := by
      unfold LayerM.preBuild
      refine wp_bind (wp_of_ok (getRef_old (by rw [hl1]; exact r1)) ?_)
      refine wp_bind (wp_layer ?_)
      have hp1 : (w1.layers l).pre = some (b + n) := by rw [hl1]; exact hp
      rw [hp1]
      have hrn : (w1.layers (b + n)).ref = 0 := by rw [hw1, updL_ne _ _ (by omega)]; exact S.refs n (by omega)
      obtain ⟨w2, e2, R2, l2, n2, v2⟩ := addRef_new (w := w1) (by rw [hs1]; exact S.pos) hrn one
      rw [hs1] at l2 n2 v2
      refine wp_bind (wp_of_ok e2 ?_)
      have R12 : Refs (fun k => k = b + n ∨ k = b + n + 1) w w2 := R1.trans (R2.weaken fun k hk => Or.inl hk)
      have S2 : LToBuild b n lk w2 := by
        refine S.lower R12 ?_ n2 v2
        rw [l2, hw1, updL_ne _ _ (by omega)]
      refine wp_bind (wp_mono (ih S2 (by omega)) ?_)
      rintro cnt w3 B3
      have R3 := B3.refs
      refine wp_bind (wp_modify ?_)
      obtain ⟨w4, hw4⟩ : ∃ w4, w4 = updL l (fun x => { x with index := cnt + 1 }) w3 := ⟨_, rfl⟩
      rw [show ({ w3 with layers := fun k => if k = l then { w3.layers k with index := cnt + 1 } else w3.layers k } : World T) = w4 from hw4.symm]
      refine wp_bind (wp_layer ?_)
      have hl3 : w3.layers l = { w.layers l with build := true } := by
        rw [R3.grow.layers l (by omega), R2.grow.layers l (by omega), hl1]
      have hl4 : w4.layers l = { w.layers l with build := true, index := cnt + 1 } := by
        rw [hw4, updL_same, hl3]
      have hs4 : w4.store = w3.store := by rw [hw4]; rfl
      have hv4 : w4.store.heap.val (w.layers l).ref = add zero one := by
        rw [hs4]
        have h2 := R12.grow.val _ r2 (fun h => h)
        rw [R3.grow.val _ (lt_of_lt_of_le r2 R12.grow.next) (fun h => h), h2, r3]
      have hr4 : (w4.layers l).ref = (w.layers l).ref := by rw [hl4]
      rw [hr4]
      refine wp_bind (wp_of_ok (value_ok r1) ?_)
      rw [hv4, hlaw]
      refine wp_pure ?_
      have R4 : Refs (fun k => b ≤ k ∧ k ≤ l) w3 w4 := by rw [hw4]; exact refs_updL ⟨by omega, le_refl _⟩ w3 fun x => ⟨_, _, _, rfl⟩
      refine ⟨cnt + 1, hl4, (R12.weaken fun k hk => by omega).trans ((R3.weaken fun k hk => by omega).trans R4), hv4, fun k hk => ?_⟩
      have hbk : w4.layers (b + k) = w3.layers (b + k) := by rw [hw4, updL_ne _ _ (by omega)]
      rw [hbk, hs4]
      obtain ⟨x1, x2, x3, x4⟩ := B3.at_ k hk
      refine ⟨x1, x2, x3, x4, ?_⟩
      have := R12.grow.next
      rcases B3.new k hk with h | h
      · omega
      · rw [h, l2]
    have hcnt : links lk n ≤ links lk (n + 1) := Nat.le_add_right _ _
    cases hlk : lk n with
    | false =>
      rw [hlk] at hk
      obtain ⟨s, hk⟩ := hk
      have e := build_unfold (f := f) hbl hk hp
      unfold wp
      rw [e, ← hw1]
      suffices h : wp True (do
        LayerM.preBuild (LayerM.build f) l
        let x ← Run.layer l
        return x.index : Run T Nat) (fun _ w' => BuiltL b (n + 1) lk w w') w1 by unfold wp at h; exact h
      refine wp_bind (wp_mono core ?_)
      rintro _ w4 ⟨i, hl4, R, hv, P⟩
      refine wp_bind (wp_layer ?_)
      refine wp_pure ?_
      have hidx : ∀ k, k ≤ n + 1 → k ≤ n ∨ b + k = l := fun k hk => by omega
      refine ⟨R.weaken fun k hk => by omega, fun k hk => ?_, fun k hk => ?_⟩
      · rcases hidx k hk with h | h
        · obtain ⟨x1, x2, x3, ⟨j, hj, x4⟩, _⟩ := P k h
          exact ⟨x1, x2, x3, j, le_trans hj hcnt, x4⟩
        · rw [h, hl4]
          exact ⟨rfl, r1, lt_of_lt_of_le r2 R.grow.next, 0, Nat.zero_le _, hv⟩
      · rcases hidx k hk with h | h
        · exact Or.inl (P k h).2.2.2.2
        · right
          rw [show b + (n + 1) = l by omega, h, hl4]
    | true =>
      rw [hlk] at hk
      have hk : (w.layers l).kind = .input := hk
      have e := build_unfold_link (f := f) hbl hk hp
      unfold wp
      rw [e, ← hw1]
      suffices h : wp True (do
        LayerM.preBuild (LayerM.build f) l
        let y ← Run.layer l
        let v ← Run.value y.ref
        LayerM.addRef (b + n) v
        let r ← LayerM.getRef (b + n)
        Run.modify l fun y => { y with ref := r }
        let x ← Run.layer l
        return x.index : Run T Nat) (fun _ w' => BuiltL b (n + 1) lk w w') w1 by unfold wp at h; exact h
      refine wp_bind (wp_mono core ?_)
      rintro _ w4 ⟨i, hl4, R, hv, P⟩
      refine wp_bind (wp_layer ?_)
      have hr4 : (w4.layers l).ref = (w.layers l).ref := by rw [hl4]
      rw [hr4]
      refine wp_bind (wp_of_ok (value_ok r1) ?_)
      rw [hv]
      obtain ⟨p1, p2, p3, p4, p5⟩ := P n (le_refl _)
      refine wp_bind (wp_of_ok (addRef_old p2 _) ?_)
      obtain ⟨r, hr⟩ : ∃ r, r = (w4.layers (b + n)).ref := ⟨_, rfl⟩
      rw [← hr] at p2 p3 p4 p5 ⊢
      obtain ⟨w5, hw5⟩ : ∃ w5, w5 = putW r (add (w4.store.heap.val r) (add zero one)) w4 := ⟨_, rfl⟩
      rw [← hw5]
      have l5 : w5.layers = w4.layers := by rw [hw5]; rfl
      refine wp_bind (wp_of_ok (getRef_old (by rw [l5, ← hr]; exact p2)) ?_)
      rw [l5, ← hr]
      refine wp_bind (wp_modify ?_)
      obtain ⟨w6, hw6⟩ : ∃ w6, w6 = updL l (fun y => { y with ref := r }) w5 := ⟨_, rfl⟩
      rw [show ({ w5 with layers := fun k => if k = l then { w5.layers k with ref := r } else w5.layers k } : World T) = w6 from hw6.symm]
      refine wp_bind (wp_layer ?_)
      refine wp_pure ?_
      have R5 : Refs (fun k => b ≤ k ∧ k ≤ l) w w5 := by rw [hw5]; exact R.put p5 _
      have R6 : Refs (fun k => b ≤ k ∧ k ≤ l) w w6 := R5.trans (by rw [hw6]; exact refs_updL ⟨by omega, le_refl _⟩ w5 fun x => ⟨_, _, _, rfl⟩)
      have h6 : ∀ k ≤ n, w6.layers (b + k) = w4.layers (b + k) := fun k hk => by rw [hw6, updL_ne _ _ (by omega), l5]
      have h6l : w6.layers l = { w.layers l with build := true, index := i, ref := r } := by rw [hw6, updL_same, l5, hl4]
      have s6 : w6.store.heap = w4.store.heap.put r (add (w4.store.heap.val r) (add zero one)) := by rw [hw6, hw5]; rfl
      have n6 : w6.store.heap.next = w4.store.heap.next := by rw [s6]; rfl
      have hval : ∀ q, (∃ j ≤ links lk n, w4.store.heap.val q = ones j) → ∃ j ≤ links lk (n + 1), w6.store.heap.val q = ones j := by
        rintro q ⟨j, hj, hq⟩
        rw [s6]
        by_cases h : q = r
        · subst h
          refine ⟨j + 1, ?_, ?_⟩
          · simp only [links, hlk, if_true]; omega
          · simp only [Heap.put, if_true, hq]; rfl
        · refine ⟨j, le_trans hj hcnt, ?_⟩
          simp only [Heap.put]
          rw [if_neg h]; exact hq
      have hidx : ∀ k, k ≤ n + 1 → k ≤ n ∨ b + k = l := fun k hk => by omega
      refine ⟨R6.weaken fun k hk => by omega, fun k hk => ?_, fun k hk => ?_⟩
      · rcases hidx k hk with h | h
        · obtain ⟨x1, x2, x3, x4, _⟩ := P k h
          rw [h6 k h, n6]
          exact ⟨x1, x2, x3, hval _ x4⟩
        · rw [h, h6l, n6]
          exact ⟨rfl, p2, p3, hval _ p4⟩
      · rcases hidx k hk with h | h
        · rw [h6 k h]; exact Or.inl (P k h).2.2.2.2
        · rw [h, h6l]; exact Or.inl p5

end Godeep
