import Verif.Lemmas.BPFrame
import Verif.Lemmas.Predict
/-
  `Build` and `Compile` of a model whose input layer is connected to another model.
-/
set_option linter.unusedSectionVars false

namespace Godeep
open Spec GoNum

variable {T : Type} [GoNum T]

/-- `w'` is `w` after changes to `build`, `ref` and `index` of layers, and to the scalars in `C` -/
structure RefsC (L : Nat → Prop) (C : Ptr → Prop) (w w' : World T) : Prop where
  grow : Grow L C [] w w'
  same : ∀ l, ∃ bb r i, w'.layers l = { w.layers l with build := bb, ref := r, index := i }
  nodes : w'.store.nodes = w.store.nodes

theorem RefsC.refl (L : Nat → Prop) (C : Ptr → Prop) (w : World T) : RefsC L C w w :=
  ⟨.refl _ _ _, fun _ => ⟨_, _, _, rfl⟩, rfl⟩

theorem RefsC.trans {L : Nat → Prop} {C : Ptr → Prop} {w1 w2 w3 : World T} (a : RefsC L C w1 w2) (b : RefsC L C w2 w3) : RefsC L C w1 w3 := by
  refine ⟨by simpa using a.grow.trans b.grow, fun l => ?_, by rw [b.nodes, a.nodes]⟩
  obtain ⟨x1, x2, x3, e⟩ := a.same l
  obtain ⟨y1, y2, y3, e'⟩ := b.same l
  exact ⟨y1, y2, y3, by rw [e', e]⟩

theorem RefsC.weaken {L L' : Nat → Prop} {C C' : Ptr → Prop} {w w' : World T} (a : RefsC L C w w') (h : ∀ l, L l → L' l) (h2 : ∀ q, C q → C' q) :
    RefsC L' C' w w' := ⟨a.grow.weaken h h2, a.same, a.nodes⟩

theorem Refs.toC {L L' : Nat → Prop} {C : Ptr → Prop} {w w' : World T} (a : Refs L w w') (h : ∀ l, L l → L' l) : RefsC L' C w w' :=
  ⟨a.grow.weaken h fun _ h => h.elim, a.same, a.nodes⟩

theorem refsC_put {L : Nat → Prop} {C : Ptr → Prop} {p : Ptr} (hp : C p) (v : T) (w : World T) : RefsC L C w (putW p v w) := by
  refine ⟨⟨le_refl _, fun q _ hq => ?_, le_refl _, fun _ _ => rfl, fun _ _ h => ⟨h, rfl⟩, fun _ _ => rfl, rfl, rfl, rfl, by simp [putW]⟩,
    fun l => ⟨_, _, _, rfl⟩, rfl⟩
  simp only [putW, Heap.put]
  rw [if_neg (fun e => hq (by rw [e]; exact hp))]

theorem addRef_old {l : Nat} {w : World T} (h : 0 < (w.layers l).ref) (v : T) :
    LayerM.addRef l v w = .ok () (putW (w.layers l).ref (add (w.store.heap.val (w.layers l).ref) v) w) := by
  show (LayerM.getRef l w).bind _ = _
  rw [getRef_old h]
  show (Run.value (w.layers l).ref w).bind _ = _
  rw [value_ok h]
  exact setValue_ok h _

/-- layers `b .. b + n` before `Build`, the last one already referred to, the first one connected to layer `r` -/
structure LinkToBuild (b n r : Nat) (w : World T) : Prop where
  pos : 0 < w.store.heap.next
  kind : (w.layers b).kind = .input
  pre : (w.layers b).pre = some r
  rlt : r < b
  rbuilt : (w.layers r).build = true
  rref : 0 < (w.layers r).ref ∧ (w.layers r).ref < w.store.heap.next
  kinds : ∀ k, 0 < k → k ≤ n → (∃ s : LSpec T, (w.layers (b + k)).kind = s.kind) ∧ (w.layers (b + k)).pre = some (b + k - 1)
  build : ∀ k, k ≤ n → (w.layers (b + k)).build = false
  refs : ∀ k, k < n → (w.layers (b + k)).ref = 0
  ref : 0 < (w.layers (b + n)).ref ∧ (w.layers (b + n)).ref < w.store.heap.next ∧
    w.store.heap.val (w.layers (b + n)).ref = add zero one ∧ (w.layers (b + n)).ref ≠ (w.layers r).ref

theorem LinkToBuild.lower {b n r : Nat} {w w' : World T} (S : LinkToBuild b (n + 1) r w) (R : Refs (fun l => l = b + n ∨ l = b + n + 1) w w')
    (e : w'.layers (b + n) = { w.layers (b + n) with ref := w.store.heap.next })
    (hn : w'.store.heap.next = w.store.heap.next + 1) (hv : w'.store.heap.val w.store.heap.next = add zero one) :
    LinkToBuild b n r w' := by
  have hk : ∀ k, k < n → w'.layers (b + k) = w.layers (b + k) := fun k hk => R.grow.layers _ (by omega)
  have hkp : ∀ k, k ≤ n → (w'.layers (b + k)).kind = (w.layers (b + k)).kind ∧
      (w'.layers (b + k)).pre = (w.layers (b + k)).pre := fun k _ => by
    obtain ⟨_, _, _, h⟩ := R.same (b + k)
    rw [h]; exact ⟨rfl, rfl⟩
  have hrb := S.rlt
  have er : w'.layers r = w.layers r := R.grow.layers _ (by omega)
  refine ⟨by omega, ?_, ?_, hrb, by rw [er]; exact S.rbuilt, by rw [er]; have := S.rref; omega, fun k k0 kn => ?_, fun k kn => ?_, fun k kn => ?_, ?_⟩
  · exact (hkp 0 (Nat.zero_le _)).1.trans S.kind
  · exact (hkp 0 (Nat.zero_le _)).2.trans S.pre
  · rw [(hkp k kn).1, (hkp k kn).2]; exact S.kinds k k0 (by omega)
  · rcases Nat.lt_or_ge k n with h | h
    · rw [hk k h]; exact S.build k (by omega)
    · have : k = n := by omega
      subst this
      rw [e]; exact S.build k (by omega)
  · rw [hk k kn]; exact S.refs k (by omega)
  · rw [e, er]; exact ⟨S.pos, by simp only; omega, hv, by have := S.rref; simp only; omega⟩

/-- `Build` of the connected input layer -/
theorem build_link (hlaw : eq (add zero one) (zero : T) = false) {b r f : Nat} {w : World T} (S : LinkToBuild b 0 r w) :
    ∃ i w', LayerM.build (f + 2) b w = .ok i w' ∧ RefsC (· = b) (· = (w.layers r).ref) w w' ∧ (w'.layers b).build = true ∧
      (w'.layers b).ref = (w.layers r).ref := by
  have hrb := S.rlt
  obtain ⟨r1, r2, r3, r4⟩ := S.ref
  simp only [Nat.add_zero] at r1 r2 r3 r4
  have hb := S.build 0 (le_refl _)
  simp only [Nat.add_zero] at hb
  set w1 := updL b (fun x => { x with build := true }) w with hw1
  have lr1 : w1.layers r = w.layers r := updL_ne _ _ (by omega)
  have lb1 : w1.layers b = { w.layers b with build := true } := by rw [hw1, updL_same]
  set w2 := putW (w.layers r).ref (add (w.store.heap.val (w.layers r).ref) one) w1 with hw2
  have e2 : LayerM.addRef r one w1 = .ok () w2 := by
    have := addRef_old (l := r) (w := w1) (by rw [lr1]; exact S.rref.1) one
    rw [this, lr1]; rfl
  have e2b : LayerM.build (f + 1) r w2 = .ok (w.layers r).index w2 := by
    rw [LayerM.build]
    show (if (w1.layers r).build then _ else _ : Run T Nat) w2 = _
    rw [lr1, S.rbuilt]
    show Out.ok (w1.layers r).index w2 = _
    rw [lr1]
  set w3 := updL b (fun x => { x with index := (w.layers r).index + 1 }) w2 with hw3
  have lb3 : w3.layers b = { w.layers b with build := true, index := (w.layers r).index + 1 } := by
    rw [hw3, updL_same, show w2.layers b = w1.layers b from rfl, lb1]
  have lr3 : w3.layers r = w.layers r := by rw [hw3, updL_ne _ _ (by omega)]; exact lr1
  have v3 : w3.store.heap.val (w.layers b).ref = add zero one := by
    show (w1.store.heap.put _ _).val (w.layers b).ref = _
    simp only [Heap.put]
    rw [if_neg r4]; exact r3
  have e3 : LayerM.preBuild (LayerM.build (f + 1)) b w1 = .ok () w3 := by
    unfold LayerM.preBuild
    show (LayerM.getRef b w1).bind _ = _
    rw [getRef_old (by rw [lb1]; exact r1)]
    show (match (w1.layers b).pre with
      | none => _
      | some p => _ : Run T Unit) w1 = _
    have hp1 : (w1.layers b).pre = some r := by rw [lb1]; exact S.pre
    rw [hp1]
    show (LayerM.addRef r one w1).bind _ = _
    rw [e2]
    show (LayerM.build (f + 1) r w2).bind _ = _
    rw [e2b]
    show (Run.value (w3.layers b).ref w3).bind _ = _
    have hr3 : (w3.layers b).ref = (w.layers b).ref := by rw [lb3]
    rw [hr3, value_ok r1, v3]
    show (if eq (add zero one) (zero : T) then _ else _ : Run T Unit) w3 = _
    rw [hlaw]
    rfl
  set w4 := putW (w.layers r).ref (add (w3.store.heap.val (w.layers r).ref) (add zero one)) w3 with hw4
  have e4 : LayerM.addRef r (add zero one) w3 = .ok () w4 := by
    have := addRef_old (l := r) (w := w3) (by rw [lr3]; exact S.rref.1) (add zero one)
    rw [this, lr3]
  have lr4 : w4.layers r = w.layers r := lr3
  set w5 := updL b (fun x => { x with ref := (w.layers r).ref }) w4 with hw5
  have e : LayerM.build (f + 2) b w = .ok (w5.layers b).index w5 := by
    rw [LayerM.build]
    show (if (w.layers b).build then _ else _ : Run T Nat) w = _
    rw [hb]
    show (match (w.layers b).kind with
        | .concat l1 l2 _ => _
        | .dense | .conv .. | .deconv .. => _
        | .input => _
        | _ => _ : Run T Nat) _ = _
    rw [S.kind, S.pre]
    show (LayerM.preBuild (LayerM.build (f + 1)) b w1).bind _ = _
    rw [e3]
    show (Run.value (w3.layers b).ref w3).bind _ = _
    have hr3 : (w3.layers b).ref = (w.layers b).ref := by rw [lb3]
    rw [hr3, value_ok r1, v3]
    show (LayerM.addRef r (add zero one) w3).bind _ = _
    rw [e4]
    show (LayerM.getRef r w4).bind _ = _
    rw [getRef_old (by rw [lr4]; exact S.rref.1), lr4]
    rfl
  refine ⟨_, _, e, ?_, ?_, ?_⟩
  · have x1 : RefsC (· = b) (· = (w.layers r).ref) w w1 := (refs_updL (L := (· = b)) rfl w fun x => ⟨_, _, _, rfl⟩).toC fun _ h => h
    have x2 : RefsC (· = b) (· = (w.layers r).ref) w1 w2 := refsC_put (C := (· = (w.layers r).ref)) rfl _ _
    have x3 : RefsC (· = b) (· = (w.layers r).ref) w2 w3 := (refs_updL (L := (· = b)) rfl w2 fun x => ⟨_, _, _, rfl⟩).toC fun _ h => h
    have x4 : RefsC (· = b) (· = (w.layers r).ref) w3 w4 := refsC_put (C := (· = (w.layers r).ref)) rfl _ _
    have x5 : RefsC (· = b) (· = (w.layers r).ref) w4 w5 := (refs_updL (L := (· = b)) rfl w4 fun x => ⟨_, _, _, rfl⟩).toC fun _ h => h
    exact x1.trans (x2.trans (x3.trans (x4.trans x5)))
  · rw [hw5, updL_same]
    show (w3.layers b).build = true
    rw [lb3]
  · rw [hw5, updL_same]

/-- `Build` of such a chain: every layer but the first gets a reference counter with value `0 + 1`, the first one shares that of the layer it is
connected to -/
theorem build_links (hlaw : eq (add zero one) (zero : T) = false) {b n r f : Nat} {w : World T} (S : LinkToBuild b n r w)
    (hf : n + 1 < f) :
    wp True (LayerM.build f (b + n)) (fun _ w' => RefsC (fun l => b ≤ l ∧ l ≤ b + n) (· = (w.layers r).ref) w w' ∧
      (∀ k ≤ n, (w'.layers (b + k)).build = true) ∧ (w'.layers b).ref = (w.layers r).ref ∧
      (∀ k ≤ n, 0 < k → 0 < (w'.layers (b + k)).ref ∧ (w'.layers (b + k)).ref < w'.store.heap.next ∧
        w'.store.heap.val (w'.layers (b + k)).ref = add zero one ∧
        (w.store.heap.next ≤ (w'.layers (b + k)).ref ∨ (w'.layers (b + k)).ref = (w.layers (b + n)).ref))) w := by
  induction n generalizing f w with
  | zero =>
    obtain ⟨f, rfl⟩ : ∃ g, f = g + 2 := ⟨f - 2, by omega⟩
    simp only [Nat.add_zero]
    obtain ⟨i, w', e, R, h1, h2⟩ := build_link (f := f) hlaw S
    refine wp_of_ok e ⟨R.weaken (fun l hl => by omega) fun _ h => h, fun k hk => ?_, h2, fun k hk h0 => by omega⟩
    have : k = 0 := by omega
    subst this
    exact h1
  | succ n ih =>
    obtain ⟨f, rfl⟩ : ∃ g, f = g + 1 := ⟨f - 1, by omega⟩
    have hrb := S.rlt
    obtain ⟨⟨s, hk⟩, hp⟩ := S.kinds (n + 1) (by omega) (le_refl _)
    rw [show b + (n + 1) - 1 = b + n by omega] at hp
    rw [show b + (n + 1) = b + n + 1 by omega] at *
    obtain ⟨r1, r2, r3, r4⟩ := S.ref
    rw [show b + (n + 1) = b + n + 1 by omega] at r1 r2 r3 r4
    have e := build_unfold (f := f) (S.build (n + 1) (le_refl _)) hk hp
    rw [show b + (n + 1) = b + n + 1 by omega] at e
    set l := b + n + 1 with hl
    set w1 := updL l (fun x => { x with build := true }) w with hw1
    have R1 : Refs (fun k => k = b + n ∨ k = b + n + 1) w w1 := refs_updL (Or.inr rfl) w fun x => ⟨_, _, _, rfl⟩
    suffices h : wp True (do
      LayerM.preBuild (LayerM.build f) l
      let x ← Run.layer l
      return x.index : Run T Nat) (fun _ w' => RefsC (fun k => b ≤ k ∧ k ≤ l) (· = (w.layers r).ref) w w' ∧
      (∀ k ≤ n + 1, (w'.layers (b + k)).build = true) ∧ (w'.layers b).ref = (w.layers r).ref ∧
      (∀ k ≤ n + 1, 0 < k → 0 < (w'.layers (b + k)).ref ∧ (w'.layers (b + k)).ref < w'.store.heap.next ∧
        w'.store.heap.val (w'.layers (b + k)).ref = add zero one ∧
        (w.store.heap.next ≤ (w'.layers (b + k)).ref ∨ (w'.layers (b + k)).ref = (w.layers l).ref))) w1 by
        unfold wp at h ⊢; rw [e]; exact h
    have hl1 : w1.layers l = { w.layers l with build := true } := by rw [hw1, updL_same]
    refine wp_bind ?_
    unfold LayerM.preBuild
    refine wp_bind (wp_of_ok (getRef_old (by rw [hl1]; exact r1)) ?_)
    refine wp_bind (wp_layer ?_)
    have hp1 : (w1.layers l).pre = some (b + n) := by rw [hl1]; exact hp
    rw [hp1]
    have hrn : (w1.layers (b + n)).ref = 0 := by rw [hw1, updL_ne _ _ (by omega)]; exact S.refs n (by omega)
    obtain ⟨w2, e2, R2, l2, n2, v2⟩ := addRef_new (w := w1) S.pos hrn one
    refine wp_bind (wp_of_ok e2 ?_)
    have R12 : Refs (fun k => k = b + n ∨ k = b + n + 1) w w2 := R1.trans (R2.weaken fun k hk => Or.inl hk)
    have S2 : LinkToBuild b n r w2 := by
      refine S.lower R12 ?_ n2 v2
      rw [l2, hw1, updL_ne _ _ (by omega)]
      rfl
    have er2 : w2.layers r = w.layers r := R12.grow.layers r (by omega)
    refine wp_bind (wp_mono (ih S2 (by omega)) ?_)
    rintro cnt w3 ⟨R3, B3, E3, P3⟩
    rw [er2] at R3 E3
    refine wp_bind (wp_modify ?_)
    set w4 := updL l (fun x => { x with index := cnt + 1 }) w3 with hw4
    show wp True _ _ w4
    refine wp_bind (wp_layer ?_)
    have hl3 : w3.layers l = { w.layers l with build := true } := by
      rw [R3.grow.layers l (by omega), R2.grow.layers l (by omega), hl1]
    have hl4 : w4.layers l = { w.layers l with build := true, index := cnt + 1 } := by
      rw [hw4, updL_same, hl3]
    have hv4 : w4.store.heap.val (w.layers l).ref = add zero one := by
      show w3.store.heap.val _ = _
      have h2 := R12.grow.val _ r2 (fun h => h)
      rw [R3.grow.val _ (lt_of_lt_of_le r2 R12.grow.next) (fun h => r4 h), h2, r3]
    have hr4 : (w4.layers l).ref = (w.layers l).ref := by rw [hl4]
    rw [hr4]
    refine wp_bind (wp_of_ok (value_ok r1) ?_)
    rw [hv4, hlaw]
    refine wp_pure ?_
    refine wp_bind (wp_layer ?_)
    refine wp_pure ?_
    have R4 : RefsC (fun k => b ≤ k ∧ k ≤ l) (· = (w.layers r).ref) w3 w4 :=
      (refs_updL (L := fun k => b ≤ k ∧ k ≤ l) ⟨by omega, le_refl _⟩ w3 fun x => ⟨_, _, _, rfl⟩).toC fun _ h => h
    have Rf : RefsC (fun k => b ≤ k ∧ k ≤ l) (· = (w.layers r).ref) w w4 :=
      (R12.toC fun k hk => by omega).trans ((R3.weaken (fun k hk => by omega) fun _ h => h).trans R4)
    have hbk : ∀ k, k ≤ n → w4.layers (b + k) = w3.layers (b + k) := fun k hk => by
      rw [hw4, updL_ne _ _ (by omega)]
    refine ⟨Rf, fun k hk => ?_, ?_, fun k hk k0 => ?_⟩
    · rcases Nat.lt_or_ge n k with h | h
      · have : b + k = l := by omega
        rw [this, hl4]
      · rw [hbk k h]; exact B3 k h
    · have := hbk 0 (by omega)
      simp only [Nat.add_zero] at this
      rw [this]; exact E3
    · rcases Nat.lt_or_ge n k with h | h
      · have : b + k = l := by omega
        rw [this, hl4]
        exact ⟨r1, lt_of_lt_of_le r2 Rf.grow.next, hv4, Or.inr rfl⟩
      · rw [hbk k h]
        obtain ⟨p1, p2, p3, p4⟩ := P3 k h k0
        refine ⟨p1, p2, p3, Or.inl ?_⟩
        rcases p4 with p4 | p4
        · exact le_trans R12.grow.next p4
        · rw [p4, l2]; exact le_refl _

end Godeep
