import Verif.Lemmas.Chain
/-
  `Sequential` models: construction, `Build`, `Compile` and `Predict`.
-/
set_option linter.unusedSectionVars false

namespace Godeep
open Spec GoNum

variable {T : Type} [GoNum T]

/-- `w'` is `w` after changes to `build`, `ref` and `index` of layers only (and new scalars) -/
structure Refs (L : Nat → Prop) (w w' : World T) : Prop where
  grow : Grow L (fun _ => False) [] w w'
  same : ∀ l, ∃ bb r i, w'.layers l = { w.layers l with build := bb, ref := r, index := i }
  nodes : w'.store.nodes = w.store.nodes

theorem Refs.refl (L : Nat → Prop) (w : World T) : Refs L w w :=
  ⟨.refl _ _ _, fun _ => ⟨_, _, _, rfl⟩, rfl⟩

theorem Refs.trans {L : Nat → Prop} {w1 w2 w3 : World T} (a : Refs L w1 w2) (b : Refs L w2 w3) : Refs L w1 w3 := by
  refine ⟨by simpa using a.grow.trans b.grow, fun l => ?_, by rw [b.nodes, a.nodes]⟩
  obtain ⟨x1, x2, x3, e⟩ := a.same l
  obtain ⟨y1, y2, y3, e'⟩ := b.same l
  exact ⟨y1, y2, y3, by rw [e', e]⟩

theorem Refs.weaken {L L' : Nat → Prop} {w w' : World T} (a : Refs L w w') (h : ∀ l, L l → L' l) : Refs L' w w' :=
  ⟨a.grow.weaken h fun _ h => h, a.same, a.nodes⟩

theorem refs_updL {L : Nat → Prop} {l : Nat} (hl : L l) {f : Layer T → Layer T} (w : World T)
    (hf : ∀ x, ∃ bb r i, f x = { x with build := bb, ref := r, index := i }) : Refs L w (updL l f w) := by
  refine ⟨grow_updL hl f w, fun k => ?_, rfl⟩
  by_cases h : k = l
  · subst h; rw [updL_same]; exact hf _
  · rw [updL_ne f w h]; exact ⟨_, _, _, rfl⟩

theorem getRef_old {l : Nat} {w : World T} (h : 0 < (w.layers l).ref) : LayerM.getRef l w = .ok (w.layers l).ref w := by
  have e : LayerM.getRef l w = (if (w.layers l).ref = 0 then (do
      let r ← Run.scalar zero
      Run.modify l fun x => { x with ref := r }
      return r) else return (w.layers l).ref : Run T Ptr) w := rfl
  rw [e, if_neg (by omega)]
  rfl

/-- write one scalar -/
def putW (p : Ptr) (v : T) (w : World T) : World T := { w with store := { w.store with heap := w.store.heap.put p v } }

theorem setValue_ok {w : World T} {p : Ptr} (hp : 0 < p) (v : T) : Run.setValue p v w = .ok () (putW p v w) := by
  simp only [Run.setValue, Run.heap, Heap.store]
  rw [if_neg (show ¬ p = 0 by omega)]
  rfl

/-- the first use of a layer's reference counter -/
theorem addRef_new {l : Nat} {w : World T} (hpos : 0 < w.store.heap.next) (h : (w.layers l).ref = 0) (v : T) :
    ∃ w', LayerM.addRef l v w = .ok () w' ∧ Refs (· = l) w w' ∧
      w'.layers l = { w.layers l with ref := w.store.heap.next } ∧
      w'.store.heap.next = w.store.heap.next + 1 ∧ w'.store.heap.val w.store.heap.next = add zero v := by
  set w1 : World T := updL l (fun x => { x with ref := w.store.heap.next })
    { w with store := { w.store with heap := (w.store.heap.alloc zero).2 } } with hw1
  have e : LayerM.getRef l w = (if (w.layers l).ref = 0 then (do
      let r ← Run.scalar zero
      Run.modify l fun x => { x with ref := r }
      return r) else return (w.layers l).ref : Run T Ptr) w := rfl
  rw [if_pos h] at e
  have e1 : LayerM.getRef l w = .ok w.store.heap.next w1 := e
  have e2 : LayerM.addRef l v w = (Run.value w.store.heap.next w1).bind fun x =>
      Run.setValue w.store.heap.next (add x v) := by
    show (LayerM.getRef l w).bind _ = _
    rw [e1]; rfl
  have v1 : w1.store.heap.val w.store.heap.next = zero := by simp [hw1, Heap.alloc]
  rw [value_ok hpos, v1] at e2
  have e3 : LayerM.addRef l v w = .ok () (putW w.store.heap.next (add zero v) w1) := by
    rw [e2]; exact setValue_ok hpos _
  refine ⟨_, e3, ⟨⟨?_, ?_, le_refl _, fun _ _ => rfl, fun _ _ h => ⟨h, rfl⟩, ?_, rfl, rfl, rfl, ?_⟩, ?_, rfl⟩, ?_, ?_, ?_⟩
  · simp [putW, hw1, Heap.alloc, Heap.put]
  · intro q hq _
    simp only [putW, hw1, Heap.alloc, Heap.put, updL_store]
    rw [if_neg (by omega), if_neg (by omega)]
  · intro k hk
    show w1.layers k = _
    rw [hw1, updL_ne _ _ hk]
  · simp [putW, hw1]
  · intro k
    show ∃ bb r i, w1.layers k = _
    by_cases hk : k = l
    · subst hk
      rw [hw1, updL_same]
      exact ⟨_, _, _, rfl⟩
    · rw [hw1, updL_ne _ _ hk]
      exact ⟨_, _, _, rfl⟩
  · show w1.layers l = _
    rw [hw1, updL_same]
  · simp [putW, hw1, Heap.alloc, Heap.put]
  · simp [putW, Heap.put]

/-- layers `b .. b + n` before `Build`, the last one already referred to -/
structure ToBuild (b n : Nat) (w : World T) : Prop where
  pos : 0 < w.store.heap.next
  kind : (w.layers b).kind = .input
  pre : (w.layers b).pre = none
  kinds : ∀ k, 0 < k → k ≤ n → (∃ s : LSpec T, (w.layers (b + k)).kind = s.kind) ∧ (w.layers (b + k)).pre = some (b + k - 1)
  build : ∀ k, k ≤ n → (w.layers (b + k)).build = false
  refs : ∀ k, k < n → (w.layers (b + k)).ref = 0
  ref : 0 < (w.layers (b + n)).ref ∧ (w.layers (b + n)).ref < w.store.heap.next ∧
    w.store.heap.val (w.layers (b + n)).ref = add zero one

theorem ToBuild.lower {b n : Nat} {w w' : World T} (S : ToBuild b (n + 1) w) (R : Refs (fun l => l = b + n ∨ l = b + n + 1) w w')
    (e : w'.layers (b + n) = { w.layers (b + n) with ref := w.store.heap.next })
    (hn : w'.store.heap.next = w.store.heap.next + 1) (hv : w'.store.heap.val w.store.heap.next = add zero one) :
    ToBuild b n w' := by
  have hk : ∀ k, k < n → w'.layers (b + k) = w.layers (b + k) := fun k hk => R.grow.layers _ (by omega)
  have hkp : ∀ k, k ≤ n → (w'.layers (b + k)).kind = (w.layers (b + k)).kind ∧
      (w'.layers (b + k)).pre = (w.layers (b + k)).pre := fun k _ => by
    obtain ⟨_, _, _, h⟩ := R.same (b + k)
    rw [h]; exact ⟨rfl, rfl⟩
  refine ⟨by omega, ?_, ?_, fun k k0 kn => ?_, fun k kn => ?_, fun k kn => ?_, ?_⟩
  · exact (hkp 0 (Nat.zero_le _)).1.trans S.kind
  · exact (hkp 0 (Nat.zero_le _)).2.trans S.pre
  · rw [(hkp k kn).1, (hkp k kn).2]; exact S.kinds k k0 (by omega)
  · rcases Nat.lt_or_ge k n with h | h
    · rw [hk k h]; exact S.build k (by omega)
    · have : k = n := by omega
      subst this
      rw [e]; exact S.build k (by omega)
  · rw [hk k kn]; exact S.refs k (by omega)
  · rw [e]; exact ⟨S.pos, by simp only; omega, hv⟩

theorem build_unfold {s : LSpec T} {f l p : Nat} {w : World T} (hb : (w.layers l).build = false)
    (hk : (w.layers l).kind = s.kind) (hp : (w.layers l).pre = some p) :
    LayerM.build (f + 1) l w = ((do
      LayerM.preBuild (LayerM.build f) l
      let x ← Run.layer l
      return x.index : Run T Nat)) (updL l (fun x => { x with build := true }) w) := by
  rw [LayerM.build]
  show (if (w.layers l).build then _ else _ : Run T Nat) w = _
  rw [hb]
  show (match (w.layers l).kind with
      | .concat l1 l2 _ => _
      | .dense | .conv .. | .deconv .. => _
      | .input => _
      | _ => _ : Run T Nat) _ = _
  rw [hk, hp]
  cases s <;> rfl

/-- `Build` of a chain: every layer gets a reference counter with value `0 + 1` -/
theorem build_chain (hlaw : eq (add zero one) (zero : T) = false) {b n f : Nat} {w : World T} (S : ToBuild b n w)
    (hf : n < f) :
    wp True (LayerM.build f (b + n)) (fun _ w' => Refs (fun l => b ≤ l ∧ l ≤ b + n) w w' ∧
      (∀ k ≤ n, (w'.layers (b + k)).build = true ∧ 0 < (w'.layers (b + k)).ref ∧
        (w'.layers (b + k)).ref < w'.store.heap.next ∧ w'.store.heap.val (w'.layers (b + k)).ref = add zero one) ∧
      (w'.layers (b + n)).ref = (w.layers (b + n)).ref ∧
      (∀ k < n, w.store.heap.next ≤ (w'.layers (b + k)).ref) ∧
      ∀ j k, j < k → k ≤ n → (w'.layers (b + j)).ref ≠ (w'.layers (b + k)).ref) w := by
  induction n generalizing f w with
  | zero =>
    obtain ⟨f, rfl⟩ : ∃ g, f = g + 1 := ⟨f - 1, by omega⟩
    simp only [Nat.add_zero]
    obtain ⟨r1, r2, r3⟩ := S.ref
    simp only [Nat.add_zero] at r1 r2 r3
    have hb := S.build 0 (le_refl _)
    simp only [Nat.add_zero] at hb
    have e : LayerM.build (f + 1) b w = .ok (w.layers b).index (updL b (fun x => { x with build := true }) w) := by
      rw [LayerM.build]
      show (if (w.layers b).build then _ else _ : Run T Nat) w = _
      rw [hb]
      show (match (w.layers b).kind with
          | .concat l1 l2 _ => _
          | .dense | .conv .. | .deconv .. => _
          | .input => _
          | _ => _ : Run T Nat) _ = _
      rw [S.kind, S.pre]
      set w1 := updL b (fun x => { x with build := true }) w with hw1
      have e1 : LayerM.preBuild (LayerM.build f) b w1 = .ok () w1 := by
        unfold LayerM.preBuild
        show (LayerM.getRef b w1).bind _ = _
        rw [getRef_old (by rw [hw1, updL_same]; exact r1)]
        show (match (w1.layers b).pre with
          | none => _
          | some p => _ : Run T Unit) w1 = _
        have hp1 : (w1.layers b).pre = none := by rw [hw1, updL_same]; exact S.pre
        rw [hp1]
        show (Run.value (w1.layers b).ref w1).bind _ = _
        have hr1 : (w1.layers b).ref = (w.layers b).ref := by rw [hw1, updL_same]
        rw [hr1, value_ok r1]
        show (if eq (w.store.heap.val (w.layers b).ref) zero then _ else _ : Run T Unit) w1 = _
        rw [r3, hlaw]
        rfl
      show (LayerM.preBuild (LayerM.build f) b w1).bind _ = _
      rw [e1]
      show Out.ok (w1.layers b).index w1 = _
      rw [hw1, updL_same]
    refine wp_of_ok e ⟨refs_updL ⟨le_refl _, le_refl _⟩ w fun x => ⟨_, _, _, rfl⟩, ?_, by rw [updL_same], by omega, by omega⟩
    intro k hk
    have : k = 0 := by omega
    subst this
    simp only [Nat.add_zero]
    rw [updL_same]
    exact ⟨rfl, r1, r2, r3⟩
  | succ n ih =>
    obtain ⟨f, rfl⟩ : ∃ g, f = g + 1 := ⟨f - 1, by omega⟩
    obtain ⟨⟨s, hk⟩, hp⟩ := S.kinds (n + 1) (by omega) (le_refl _)
    rw [show b + (n + 1) - 1 = b + n by omega] at hp
    rw [show b + (n + 1) = b + n + 1 by omega] at *
    obtain ⟨r1, r2, r3⟩ := S.ref
    rw [show b + (n + 1) = b + n + 1 by omega] at r1 r2 r3
    have e := build_unfold (f := f) (S.build (n + 1) (le_refl _)) hk hp
    rw [show b + (n + 1) = b + n + 1 by omega] at e
    set l := b + n + 1 with hl
    set w1 := updL l (fun x => { x with build := true }) w with hw1
    have R1 : Refs (fun k => k = b + n ∨ k = b + n + 1) w w1 := refs_updL (Or.inr rfl) w fun x => ⟨_, _, _, rfl⟩
    suffices h : wp True (do
      LayerM.preBuild (LayerM.build f) l
      let x ← Run.layer l
      return x.index : Run T Nat) (fun _ w' => Refs (fun k => b ≤ k ∧ k ≤ l) w w' ∧
      (∀ k ≤ n + 1, (w'.layers (b + k)).build = true ∧ 0 < (w'.layers (b + k)).ref ∧
        (w'.layers (b + k)).ref < w'.store.heap.next ∧ w'.store.heap.val (w'.layers (b + k)).ref = add zero one) ∧
      (w'.layers l).ref = (w.layers l).ref ∧
      (∀ k < n + 1, w.store.heap.next ≤ (w'.layers (b + k)).ref) ∧
      ∀ j k, j < k → k ≤ n + 1 → (w'.layers (b + j)).ref ≠ (w'.layers (b + k)).ref) w1 by
        unfold wp at h ⊢; rw [e]; exact h
    have hl1 : w1.layers l = { w.layers l with build := true } := by rw [hw1, updL_same]
    refine wp_bind ?_
    unfold LayerM.preBuild
    refine wp_bind (wp_of_ok (getRef_old (by rw [hl1]; exact r1)) ?_)
    refine wp_bind (wp_layer ?_)
    have hp1 : (w1.layers l).pre = some (b + n) := by rw [hl1]; exact hp
    rw [hp1]
    have hrn : (w1.layers (b + n)).ref = 0 := by rw [hw1, updL_ne _ _ (by omega)]; exact S.refs n (by omega)
    obtain ⟨w2, e2, R2, l2, n2, v2⟩ := addRef_new (w := w1) S.pos hrn one
    refine wp_bind (wp_of_ok e2 ?_)
    have R12 : Refs (fun k => k = b + n ∨ k = b + n + 1) w w2 := R1.trans (R2.weaken fun k hk => Or.inl hk)
    have S2 : ToBuild b n w2 := by
      refine S.lower R12 ?_ n2 v2
      rw [l2, hw1, updL_ne _ _ (by omega)]
      rfl
    refine wp_bind (wp_mono (ih S2 (by omega)) ?_)
    rintro cnt w3 ⟨R3, P3, E3, F3, I3⟩
    refine wp_bind (wp_modify ?_)
    set w4 := updL l (fun x => { x with index := cnt + 1 }) w3 with hw4
    show wp True _ _ w4
    refine wp_bind (wp_layer ?_)
    have hl3 : w3.layers l = { w.layers l with build := true } := by
      rw [R3.grow.layers l (by omega), R2.grow.layers l (by omega), hl1]
    have hl4 : w4.layers l = { w.layers l with build := true, index := cnt + 1 } := by
      rw [hw4, updL_same, hl3]
    have hv4 : w4.store.heap.val (w.layers l).ref = add zero one := by
      show w3.store.heap.val _ = _
      have h2 := R12.grow.val _ r2 (fun h => h)
      rw [R3.grow.val _ (lt_of_lt_of_le r2 R12.grow.next) (fun h => h), h2, r3]
    have hr4 : (w4.layers l).ref = (w.layers l).ref := by rw [hl4]
    rw [hr4]
    refine wp_bind (wp_of_ok (value_ok r1) ?_)
    rw [hv4, hlaw]
    refine wp_pure ?_
    refine wp_bind (wp_layer ?_)
    refine wp_pure ?_
    have R4 : Refs (fun k => b ≤ k ∧ k ≤ l) w3 w4 := refs_updL ⟨by omega, le_refl _⟩ w3 fun x => ⟨_, _, _, rfl⟩
    have Rf : Refs (fun k => b ≤ k ∧ k ≤ l) w w4 :=
      (R12.weaken fun k hk => by omega).trans ((R3.weaken fun k hk => by omega).trans R4)
    have hbk : ∀ k, k ≤ n → w4.layers (b + k) = w3.layers (b + k) := fun k hk => by
      rw [hw4, updL_ne _ _ (by omega)]
    have hlow : ∀ k < n + 1, w.store.heap.next ≤ (w4.layers (b + k)).ref := fun k hk => by
      rw [hbk k (by omega)]
      rcases Nat.lt_or_ge k n with h | h
      · exact le_trans R12.grow.next (F3 k h)
      · have : k = n := by omega
        subst this
        rw [E3, l2]
        exact le_refl _
    refine ⟨Rf, fun k hk => ?_, hr4, hlow, fun j k hj hk => ?_⟩
    · rcases Nat.lt_or_ge n k with h | h
      · have : b + k = l := by omega
        rw [this, hl4]
        exact ⟨rfl, r1, lt_of_lt_of_le r2 Rf.grow.next, hv4⟩
      · rw [hbk k h]
        exact P3 k h
    · rcases Nat.lt_or_ge n k with h | h
      · have : b + k = l := by omega
        rw [this, hr4]
        have := hlow j (by omega)
        omega
      · rw [hbk k h, hbk j (by omega)]
        exact I3 j k hj h

/-- tensors are kept -/
structure Ext (w w' : World T) : Prop where
  next : w.store.heap.next ≤ w'.store.heap.next
  nodeNext : w.nodeNext ≤ w'.nodeNext
  kind : ∀ n, n < w.nodeNext → (w'.store.nodes n).kind = (w.store.nodes n).kind
  frozen : ∀ n, n < w.nodeNext → Spec.frozen w.store n →
    Spec.frozen w'.store n ∧ (w'.store.nodes n).mat = (w.store.nodes n).mat

theorem Grow.ext {L : Nat → Prop} {C : Ptr → Prop} {new : List (Op T)} {w w' : World T} (g : Grow L C new w w') :
    Ext w w' := ⟨g.next, g.nodeNext, g.kind, g.frozen⟩

theorem Ext.refl (w : World T) : Ext w w := ⟨le_refl _, le_refl _, fun _ _ => rfl, fun _ _ h => ⟨h, rfl⟩⟩

theorem Ext.trans {w1 w2 w3 : World T} (a : Ext w1 w2) (b : Ext w2 w3) : Ext w1 w3 := by
  refine ⟨le_trans a.next b.next, le_trans a.nodeNext b.nodeNext, fun n h => ?_, fun n h1 h2 => ?_⟩
  · rw [b.kind n (lt_of_lt_of_le h a.nodeNext), a.kind n h]
  · obtain ⟨x1, x2⟩ := a.frozen n h1 h2
    obtain ⟨y1, y2⟩ := b.frozen n (lt_of_lt_of_le h1 a.nodeNext) x1
    exact ⟨y1, by rw [y2, x2]⟩

/-- same tensors, same number of scalars -/
theorem ext_of_eq {w w' : World T} (h1 : w.store.heap.next ≤ w'.store.heap.next) (h2 : w'.nodeNext = w.nodeNext)
    (h3 : w'.store.nodes = w.store.nodes) : Ext w w' :=
  ⟨h1, by omega, fun n _ => by rw [h3], fun n _ hf => ⟨by unfold Spec.frozen at *; rw [h3]; exact hf, by rw [h3]⟩⟩

theorem Ready.ext {w w' : World T} {n : Nat} {m : Mat} (r : Ready w n m) (g : Ext w w') : Ready w' n m := by
  obtain ⟨f1, f2⟩ := g.frozen n r.lt r.frozen
  refine ⟨lt_of_lt_of_le r.lt g.nodeNext, by rw [f2, r.mat], f1, r.good.mono g.next, ?_, ?_, ?_⟩
  · rw [g.kind n r.lt]; exact r.kids
  · rw [g.kind n r.lt]; exact scalarOK_mono r.scal g.next
  · rw [g.kind n r.lt]; exact r.expr

theorem LayerAt.ext {s : LSpec T} {w w' : World T} {l : Nat} (h : LayerAt s w l) (g : Ext w w') {bb : Bool} {r : Ptr} {i : Nat}
    (e : w'.layers l = { w.layers l with build := bb, ref := r, index := i }) : LayerAt s w' l := by
  refine ⟨by rw [e]; exact h.kind, by rw [e]; exact h.act, by rw [e]; exact h.pre, by rw [e]; exact h.ff, ?_,
    by rw [e]; exact h.wn⟩
  cases s with
  | dense n a =>
    obtain ⟨o', m, h1, h2, h3⟩ := h.own
    exact ⟨o', m, by rw [e]; exact h1, h2.ext g, h3⟩
  | _ => trivial

theorem LayerAt.own_ext {s : LSpec T} {w w' : World T} {l : Nat} (h : LayerAt s w l) (g : Ext w w') {bb : Bool} {r : Ptr} {i : Nat}
    (e : w'.layers l = { w.layers l with build := bb, ref := r, index := i }) (q : Ptr) :
    ownCell w' l q ↔ ownCell w l q := by
  refine ownCell_congr (by rw [e]) (by rw [e]) (fun o hk ho => ?_) q
  obtain ⟨m, hm⟩ := h.own.mat h.kind hk ho
  rw [(hm.ext g).mat, hm.mat]

theorem SeqBase.at {shape : List Nat} {ls : List (LSpec T)} {b inp0 : Nat} {m0 : Mat} {w : World T}
    (S : SeqBase shape ls b inp0 m0 w) {k : Nat} (hk : k < ls.length) : LayerAt ls[k] w (b + 1 + k) :=
  S.lay k _ (by simp [hk])

theorem SeqBase.ext {shape : List Nat} {ls : List (LSpec T)} {b inp0 : Nat} {m0 : Mat} {w w' : World T}
    (S : SeqBase shape ls b inp0 m0 w) (g : Ext w w') (hl : ∀ k ≤ ls.length, ∃ bb r i,
      w'.layers (b + k) = { w.layers (b + k) with build := bb, ref := r, index := i }) :
    SeqBase shape ls b inp0 m0 w' := by
  obtain ⟨b1, r1, i1, e⟩ := hl 0 (Nat.zero_le _)
  simp only [Nat.add_zero] at e
  have hl' : ∀ k, k < ls.length → ∃ bb r i,
      w'.layers (b + 1 + k) = { w.layers (b + 1 + k) with build := bb, ref := r, index := i } := fun k hk => by
    have := hl (k + 1) hk
    rw [show b + (k + 1) = b + 1 + k by omega] at this
    exact this
  have hown : ∀ k, k < ls.length → ∀ q, ownCell w' (b + 1 + k) q ↔ ownCell w (b + 1 + k) q := fun k hk q => by
    obtain ⟨b2, r2, i2, e2⟩ := hl' k hk
    exact (S.at hk).own_ext g e2 q
  refine ⟨lt_of_lt_of_le S.pos g.next, by rw [e]; exact S.kind, by rw [e]; exact S.pre, by rw [e]; exact S.ff,
    by rw [e]; exact S.input, S.rin.ext g, S.shape, S.nodup, by rw [e]; exact S.wn, ?_, ?_⟩
  · intro k s hs
    obtain ⟨b2, r2, i2, e2⟩ := hl' k (List.getElem?_eq_some_iff.1 hs).1
    exact (S.lay k s hs).ext g e2
  · intro k hk q hq
    obtain ⟨h1, h2⟩ := S.dis k hk q ((hown k hk q).1 hq)
    exact ⟨h1, fun k' hk' hq' => h2 k' hk' ((hown k' (by omega) q).1 hq')⟩

theorem SeqBase.snoc {shape : List Nat} {ls : List (LSpec T)} {s : LSpec T} {b inp0 : Nat} {m0 : Mat} {w w' : World T}
    (S : SeqBase shape ls b inp0 m0 w) (g : Ext w w') (hl : ∀ k ≤ ls.length, w'.layers (b + k) = w.layers (b + k))
    (hs : LayerAt s w' (b + 1 + ls.length))
    (hnew : ∀ q, ownCell w' (b + 1 + ls.length) q → w.store.heap.next ≤ q) :
    SeqBase shape (ls ++ [s]) b inp0 m0 w' := by
  have S' := S.ext g fun k hk => ⟨_, _, _, hl k hk⟩
  have hl' : ∀ k, k < ls.length → w'.layers (b + 1 + k) = w.layers (b + 1 + k) := fun k hk => by
    have := hl (k + 1) hk
    rw [show b + (k + 1) = b + 1 + k by omega] at this
    exact this
  have hown : ∀ k, k < ls.length → ∀ q, ownCell w' (b + 1 + k) q ↔ ownCell w (b + 1 + k) q := fun k hk q =>
    (S.at hk).own_ext g (hl' k hk) q
  refine ⟨S'.pos, S'.kind, S'.pre, S'.ff, S'.input, S'.rin, S'.shape, S'.nodup, S'.wn, ?_, ?_⟩
  · intro k s' h
    have hk := (List.getElem?_eq_some_iff.1 h).1
    rw [List.length_append, List.length_singleton] at hk
    rcases Nat.lt_or_ge k ls.length with h1 | h1
    · rw [List.getElem?_append_left h1] at h
      exact S'.lay k s' h
    · have : k = ls.length := by omega
      subst this
      simp at h
      rw [← h]; exact hs
  · intro k hk q hq
    rw [List.length_append, List.length_singleton] at hk
    rcases Nat.lt_or_ge k ls.length with h1 | h1
    · exact S'.dis k h1 q hq
    · have : k = ls.length := by omega
      subst this
      have hq' := hnew q hq
      refine ⟨fun hm => ?_, fun k' hk' hq2 => ?_⟩
      · have := (S.rin.good.valid q hm).2; omega
      · have := (S.at hk').own_lt ((hown k' hk' q).1 hq2); omega

/-- only layers with weights are trainable from the start -/
def _root_.Godeep.Spec.LSpec.trainable : LSpec T → Bool
  | .dense _ _ => true
  | .conv _ _ _ _ _ _ => true
  | .deconv _ _ _ _ _ _ => true
  | _ => false

/-- a layer as its constructor makes it, with the previous layer `p` -/
def fresh (s : LSpec T) (p o : Option Nat) : Layer T :=
  { LayerM.blank s.kind with act := s.act, trainable := s.trainable, pre := p, output := o }

theorem create_ok (s : LSpec T) {w : World T} (hpos : 0 < w.store.heap.next) :
    wp True s.create (fun l w' => l = w.layerNext ∧ Ext w w' ∧ (∀ k, k ≠ l → w'.layers k = w.layers k) ∧
      (∃ o, w'.layers l = fresh s none o) ∧ OwnOK s w' l ∧ (∀ q, ownCell w' l q → w.store.heap.next ≤ q) ∧
      w'.layerNext = w.layerNext + 1 ∧ w'.nets = w.nets ∧ w'.netNext = w.netNext ∧
      ∀ q, q < w.store.heap.next → w'.store.heap.val q = w.store.heap.val q) w := by
  have plain : ∀ (x : Layer T), OwnOK s w 0 = True → x.kind ≠ .dense → (∃ o, x = fresh s none o) →
      wp True (Run.newLayer x) (fun l w' => l = w.layerNext ∧ Ext w w' ∧ (∀ k, k ≠ l → w'.layers k = w.layers k) ∧
      (∃ o, w'.layers l = fresh s none o) ∧ OwnOK s w' l ∧ (∀ q, ownCell w' l q → w.store.heap.next ≤ q) ∧
      w'.layerNext = w.layerNext + 1 ∧ w'.nets = w.nets ∧ w'.netNext = w.netNext ∧
      ∀ q, q < w.store.heap.next → w'.store.heap.val q = w.store.heap.val q) w := by
    intro x h0 hd ⟨o, ho⟩
    refine ⟨rfl, ext_of_eq (le_refl _) rfl rfl, fun k hk => if_neg hk, ⟨o, by simp [ho]⟩, ?_, ?_, rfl, rfl, rfl, fun _ _ => rfl⟩
    · cases s with
      | dense n a => simp [fresh, LSpec.kind, LayerM.blank, ho] at hd
      | _ => trivial
    · intro q hq
      unfold ownCell at hq
      simp only [if_true] at hq
      split at hq
      · next k _ hk _ => exact (hd hk).elim
      · exact hq.elim
  cases s with
  | dense n a =>
    unfold LSpec.create LayerM.newDense
    refine wp_bind (wp_zeros (L := fun _ => False) (C := fun _ => False) hpos fun w1 m g l x r sh nd f => ?_)
    set w2 : World T := { w1 with
      layers := fun k => if k = w1.layerNext then
        { LayerM.blank .dense with output := some w.nodeNext, act := a, trainable := true } else w1.layers k
      layerNext := w1.layerNext + 1 } with hw2
    refine wp_of_ok (w' := w2) (r := w1.layerNext) rfl ?_
    have e12 : Ext w1 w2 := ext_of_eq (le_refl _) rfl rfl
    have el : w2.layers w1.layerNext = { LayerM.blank .dense with output := some w.nodeNext, act := a, trainable := true } := by
      simp [hw2]
    refine ⟨g.layerNext, g.ext.trans e12, fun k hk => ?_, ⟨some w.nodeNext, el⟩, ⟨w.nodeNext, m, by rw [el], r.ext e12, sh, nd⟩, ?_, ?_, g.nets, g.netNext, fun q hq => g.val q hq fun h => h⟩
    · show (if k = w1.layerNext then _ else w1.layers k) = _
      rw [if_neg hk, l]
    · intro q hq
      unfold ownCell at hq
      rw [el] at hq
      have hm : (w2.store.nodes w.nodeNext).mat = m := (r.ext e12).mat
      simp only [LayerM.blank, hm] at hq
      exact f q hq
    · show w1.layerNext + 1 = _
      rw [g.layerNext]
  | _ => exact plain _ rfl (by simp [LayerM.blank]) ⟨none, rfl⟩

/-- a sequential model that has just been made -/
structure SeqNew (shape : List Nat) (ls : List (LSpec T)) (m b inp0 : Nat) (m0 : Mat) (w : World T) : Prop
    extends SeqBase shape ls b inp0 m0 w where
  lay0 : ∃ d, w.layers b = { LayerM.blank .input with input := some inp0, dif := some d }
  layk : ∀ k s, ls[k]? = some s → ∃ o, w.layers (b + 1 + k) = fresh s (some (b + k)) o
  next : w.layerNext = b + ls.length + 1
  net : w.nets m = { NetM.blankNet with first := some b, last := some (b + ls.length) }
  mlt : m < w.netNext

/-- assignment to fields of model `m` -/
def updN (m : Nat) (f : Net T → Net T) (w : World T) : World T :=
  { w with nets := fun k => if k = m then f (w.nets k) else w.nets k }

@[simp] theorem updN_store (l : Nat) (f : Net T → Net T) (w : World T) : (updN l f w).store = w.store := rfl
@[simp] theorem updN_layers (l : Nat) (f : Net T → Net T) (w : World T) : (updN l f w).layers = w.layers := rfl
@[simp] theorem updN_nodeNext (l : Nat) (f : Net T → Net T) (w : World T) : (updN l f w).nodeNext = w.nodeNext := rfl
@[simp] theorem updN_same (l : Nat) (f : Net T → Net T) (w : World T) : (updN l f w).nets l = f (w.nets l) := by
  simp [updN]
theorem updN_ne {l k : Nat} (f : Net T → Net T) (w : World T) (h : k ≠ l) : (updN l f w).nets k = w.nets k := by
  simp [updN, h]

theorem push_first {m l : Nat} {w : World T} (h : (w.nets m).first = none) :
    NetM.pushLayer m l w = .ok () (updN m (fun x => { x with first := some l, last := some l }) w) := by
  show (match (w.nets m).first with
    | none => _
    | some _ => _ : Run T Unit) w = _
  rw [h]; rfl

theorem push_next {m l f p : Nat} {w : World T} (h : (w.nets m).first = some f) (hl : (w.nets m).last = some p) :
    NetM.pushLayer m l w = .ok () (updN m (fun x => { x with last := some l }) (updL l (fun x => { x with pre := some p }) w)) := by
  show (match (w.nets m).first with
    | none => _
    | some _ => _ : Run T Unit) w = _
  rw [h]
  show (Run.deref (w.nets m).last w).bind _ = _
  rw [hl]; rfl

theorem push_step {shape : List Nat} {ls : List (LSpec T)} {m b inp0 : Nat} {m0 : Mat} {w : World T} {s : LSpec T}
    (S : SeqNew shape ls m b inp0 m0 w) :
    wp True (do
      let l ← s.create
      NetM.pushLayer m l : Run T Unit) (fun _ w' => SeqNew shape (ls ++ [s]) m b inp0 m0 w' ∧ Ext w w' ∧
        (∀ q, q < w.store.heap.next → w'.store.heap.val q = w.store.heap.val q) ∧
        (∀ k, k ≠ b + 1 + ls.length → w'.layers k = w.layers k) ∧ (∀ k, k ≠ m → w'.nets k = w.nets k) ∧
        w'.netNext = w.netNext ∧
        ∀ k ≤ ls.length, ∀ q, ownCell w' (b + 1 + k) q → (k < ls.length ∧ ownCell w (b + 1 + k) q) ∨ w.store.heap.next ≤ q) w := by
  refine wp_bind (wp_mono (create_ok s S.pos) ?_)
  rintro l w1 ⟨rfl, e1, hl, ⟨o, ho⟩, hown, hnew, hln, hnets, hnn, hval⟩
  have hn1 : w1.nets m = { NetM.blankNet with first := some b, last := some (b + ls.length) } := by
    rw [hnets]; exact S.net
  refine wp_of_ok (push_next (f := b) (p := b + ls.length) (by rw [hn1]) (by rw [hn1])) ?_
  have hid : w.layerNext = b + 1 + ls.length := by rw [S.next]; omega
  rw [hid] at hl ho hown hnew ⊢
  set w2 : World T := updN m (fun x => { x with last := some (b + 1 + ls.length) })
    (updL (b + 1 + ls.length) (fun x => { x with pre := some (b + ls.length) }) w1) with hw2
  have e12 : Ext w1 w2 := ext_of_eq (le_refl _) rfl rfl
  have el : w2.layers (b + 1 + ls.length) = fresh s (some (b + ls.length)) o := by
    rw [hw2, updN_layers, updL_same, ho]; rfl
  have hsame : ∀ k, k ≠ b + 1 + ls.length → w2.layers k = w.layers k := fun k hk => by
    rw [hw2, updN_layers, updL_ne _ _ hk, hl k hk]
  have hat : LayerAt s w2 (b + 1 + ls.length) := by
    refine ⟨by rw [el]; rfl, by rw [el]; rfl, by rw [el]; simp only [fresh]; congr 1; omega, by rw [el]; rfl, ?_,
      by rw [el]; exact ⟨rfl, rfl⟩⟩
    cases s with
    | dense n a =>
      obtain ⟨o', m', h1, h2, h3⟩ := hown
      refine ⟨o', m', ?_, h2.ext e12, h3⟩
      rw [ho] at h1
      rw [el]; exact h1
    | _ => trivial
  have hnew' : ∀ q, ownCell w2 (b + 1 + ls.length) q → w.store.heap.next ≤ q := fun q hq => hnew q (by
    refine (ownCell_congr (w := w1) (w' := w2) ?_ ?_ (fun _ _ _ => rfl) q).1 hq
    · rw [el, ho]; rfl
    · rw [el, ho]; rfl)
  have B := S.toSeqBase.snoc (e1.trans e12) (fun k hk => hsame _ (by omega)) hat hnew'
  have hlen : (ls ++ [s]).length = ls.length + 1 := by simp
  refine ⟨⟨B, ?_, ?_, ?_, ?_, ?_⟩, e1.trans e12, hval, hsame, fun k hk => ?_, hnn, fun k hk q hq => ?_⟩
  · rw [hsame b (by omega)]; exact S.lay0
  · intro k s' h
    have hk := (List.getElem?_eq_some_iff.1 h).1
    rw [hlen] at hk
    rcases Nat.lt_or_ge k ls.length with h1 | h1
    · rw [List.getElem?_append_left h1] at h
      rw [hsame _ (by omega)]
      exact S.layk k s' h
    · have : k = ls.length := by omega
      subst this
      simp at h
      rw [← h]; exact ⟨o, el⟩
  · show w1.layerNext = _
    rw [hln, S.next, hlen]; omega
  · rw [hw2, updN_same]
    show { w1.nets m with last := some (b + 1 + ls.length) } = _
    rw [hn1, hlen, show b + 1 + ls.length = b + (ls.length + 1) by omega]
  · show m < w1.netNext
    rw [hnn]; exact S.mlt
  · rw [hw2, updN_ne _ _ hk]
    show w1.nets k = _
    rw [hnets]
  · rcases Nat.lt_or_ge k ls.length with h | h
    · exact Or.inl ⟨h, ((S.at h).own_ext (e1.trans e12) (hsame _ (by omega)) q).1 hq⟩
    · have : k = ls.length := by omega
      subst this
      exact Or.inr (hnew' q hq)

/-- whatever existed is as it was -/
structure Apart (w w' : World T) : Prop where
  ext : Ext w w'
  val : ∀ q, q < w.store.heap.next → w'.store.heap.val q = w.store.heap.val q
  layers : ∀ l, l < w.layerNext → w'.layers l = w.layers l
  nets : ∀ k, k < w.netNext → w'.nets k = w.nets k
  layerNext : w.layerNext ≤ w'.layerNext
  netNext : w.netNext ≤ w'.netNext

theorem Apart.trans {w1 w2 w3 : World T} (a : Apart w1 w2) (b : Apart w2 w3) : Apart w1 w3 := by
  refine ⟨a.ext.trans b.ext, fun q h => ?_, fun l h => ?_, fun k h => ?_, le_trans a.layerNext b.layerNext,
    le_trans a.netNext b.netNext⟩
  · rw [b.val q (lt_of_lt_of_le h a.ext.next), a.val q h]
  · rw [b.layers l (lt_of_lt_of_le h a.layerNext), a.layers l h]
  · rw [b.nets k (lt_of_lt_of_le h a.netNext), a.nets k h]

/-- a sequential model after construction -/
theorem sequential_ok (shape : List Nat) (ls : List (LSpec T)) {w : World T} (hpos : 0 < w.store.heap.next) :
    wp True (sequential shape ls) (fun m w' => m = w.netNext ∧ Apart w w' ∧
      ∃ inp0 m0, SeqNew shape ls m w.layerNext inp0 m0 w' ∧ (∀ q ∈ m0.ops, w.store.heap.next ≤ q) ∧
        ∀ k < ls.length, ∀ q, ownCell w' (w.layerNext + 1 + k) q → w.store.heap.next ≤ q) w := by
  unfold sequential
  refine wp_bind (wp_of_ok (r := w.netNext) (w' := { w with
    nets := fun k => if k = w.netNext then NetM.blankNet else w.nets k
    netNext := w.netNext + 1 }) rfl ?_)
  set w1 : World T := { w with
    nets := fun k => if k = w.netNext then NetM.blankNet else w.nets k
    netNext := w.netNext + 1 } with hw1
  have q1 : 0 < w1.store.heap.next := hpos
  refine wp_bind ?_
  unfold LayerM.newInput
  refine wp_bind (wp_zeros (L := fun _ => False) (C := fun _ => False) q1 fun w2 m2 g2 l2 x2 r2 s2 nd2 f2 => ?_)
  have q2 : 0 < w2.store.heap.next := lt_of_lt_of_le q1 g2.next
  refine wp_bind (wp_zeros (L := fun _ => False) (C := fun _ => False) q2 fun w3 m3 g3 l3 x3 r3 s3 nd3 f3 => ?_)
  have q3 : 0 < w3.store.heap.next := lt_of_lt_of_le q2 g3.next
  have hn3 : w3.nets w.netNext = NetM.blankNet := by rw [g3.nets, g2.nets]; simp [hw1]
  have hl3 : w3.layerNext = w.layerNext := by rw [g3.layerNext, g2.layerNext]
  have hm3 : w3.netNext = w.netNext + 1 := by rw [g3.netNext, g2.netNext]
  set x0 : Layer T := { LayerM.blank .input with input := some w1.nodeNext, dif := some w2.nodeNext } with hx0
  refine wp_of_ok (r := w3.layerNext) (w' := { w3 with
    layers := fun k => if k = w3.layerNext then x0 else w3.layers k
    layerNext := w3.layerNext + 1 }) rfl ?_
  rw [hl3]
  set w4 : World T := { w3 with
    layers := fun k => if k = w.layerNext then x0 else w3.layers k
    layerNext := w.layerNext + 1 } with hw4
  refine wp_bind (wp_of_ok (push_first (w := w4) (by show (w3.nets w.netNext).first = none; rw [hn3]; rfl)) ?_)
  set w5 : World T := updN w.netNext (fun x => { x with first := some w.layerNext, last := some w.layerNext }) w4 with hw5
  have e25 : Ext w2 w5 := g3.ext.trans (ext_of_eq (le_refl _) rfl rfl)
  have el5 : w5.layers w.layerNext = x0 := by simp [hw5, hw4]
  have S0 : SeqNew shape [] w.netNext w.layerNext w1.nodeNext m2 w5 := by
    refine ⟨⟨q3, by rw [el5]; rfl, by rw [el5]; rfl, by rw [el5]; rfl, by rw [el5], r2.ext e25, s2, nd2,
      by rw [el5]; exact ⟨rfl, rfl⟩, by simp, by simp⟩, ⟨_, el5⟩, by simp, rfl, ?_, ?_⟩
    · rw [hw5, updN_same]
      show { w3.nets w.netNext with first := some w.layerNext, last := some w.layerNext } = _
      rw [hn3]; rfl
    · show w.netNext < w3.netNext; omega
  have e05 : Ext w w5 := (ext_of_eq (le_refl _) rfl rfl : Ext w w1).trans (g2.ext.trans e25)
  have A0 : Apart w w5 := by
    refine ⟨e05, fun q hq => ?_, fun l hl => ?_, fun k hk => ?_, ?_, ?_⟩
    · show w3.store.heap.val q = _
      rw [g3.val q (lt_of_lt_of_le hq g2.next) (fun h => h), g2.val q hq (fun h => h)]
    · show (if l = w.layerNext then x0 else w3.layers l) = _
      rw [if_neg (by omega), g3.layers l (fun h => h), g2.layers l (fun h => h)]
    · rw [hw5, updN_ne _ _ (by omega)]
      show w3.nets k = _
      rw [g3.nets, g2.nets]
      exact if_neg (by omega)
    · show w.layerNext ≤ w.layerNext + 1; omega
    · show w.netNext ≤ w3.netNext; omega
  refine wp_bind (wp_mono (wp_each (I := fun done wd => SeqNew shape done w.netNext w.layerNext w1.nodeNext m2 wd ∧ Apart w wd ∧
    ∀ k < done.length, ∀ q, ownCell wd (w.layerNext + 1 + k) q → w.store.heap.next ≤ q)
    ⟨S0, A0, by simp⟩ ?_) ?_)
  · rintro d i r _ wd ⟨Sd, Ad, Od⟩
    refine wp_mono (push_step Sd) ?_
    rintro _ we ⟨Se, x1, x2, x3, x4, x5, x6⟩
    refine ⟨Se, ⟨Ad.ext.trans x1, fun q hq => ?_, fun l hl => ?_, fun k hk => ?_, ?_, ?_⟩, fun k hk q hq => ?_⟩
    · rw [x2 q (lt_of_lt_of_le hq Ad.ext.next), Ad.val q hq]
    · rw [x3 l (by omega), Ad.layers l hl]
    · rw [x4 k (by omega), Ad.nets k hk]
    · rw [Se.next]; omega
    · rw [x5]; exact Ad.netNext
    · rw [List.length_append, List.length_singleton] at hk
      rcases x6 k (by omega) q hq with ⟨h1, h2⟩ | h
      · exact Od k h1 q h2
      · exact le_trans Ad.ext.next h
  · rintro _ wf ⟨Sf, Af, Of⟩
    exact wp_pure ⟨rfl, Af, _, _, Sf, f2, Of⟩

end Godeep
