import Verif.Spec.Train
import Verif.Lemmas.SaveFrame
import Verif.Lemmas.Exec
/-
  What training can change at all, for models of any structure.
-/
set_option linter.unusedSectionVars false

namespace Godeep
open Spec GoNum

variable {T : Type} [GoNum T]

/-- only scalars in `D` differ -/
def HeapRel (D : Ptr → Prop) (w w' : World T) : Prop :=
  ∃ h : Heap T, w' = { w with store := { w.store with heap := h } } ∧ ∀ q, ¬ D q → h.val q = w.store.heap.val q

theorem HeapRel.refl (D : Ptr → Prop) (w : World T) : HeapRel D w w := ⟨w.store.heap, rfl, fun _ _ => rfl⟩

theorem leaves_then {α β : Type} {R : World T → Prop} {x : Run T α} {f : α → Run T β} {w : World T} (h : Leaves R (x w))
    (hf : ∀ a s, R s → Leaves R (f a s)) : Leaves R ((x >>= f) w) := leaves_bind h hf fun _ h => h

theorem leaves_heap {α : Type} {D : Ptr → Prop} {w0 w : World T} {f : Heap T → Out (Heap T) α} (h : HeapRel D w0 w)
    (hf : ∀ h0 : Heap T, Leaves (fun h1 : Heap T => ∀ q, ¬ D q → h1.val q = h0.val q) (f h0)) :
    Leaves (HeapRel D w0) (Run.heap f w) := by
  obtain ⟨h0, rfl, hv⟩ := h
  have := hf h0
  unfold Run.heap
  dsimp only
  cases e : f h0 with
  | ok a h1 => rw [e] at this; exact ⟨h1, rfl, fun q hq => (this q hq).trans (hv q hq)⟩
  | err a h1 => rw [e] at this; exact ⟨h1, rfl, fun q hq => (this q hq).trans (hv q hq)⟩
  | panic => trivial

theorem leaves_setValue {D : Ptr → Prop} {w0 w : World T} (h : HeapRel D w0 w) {p : Ptr} (hp : D p) (v : T) :
    Leaves (HeapRel D w0) (Run.setValue p v w) := by
  refine leaves_heap h fun h0 => ?_
  unfold Heap.store
  split
  · trivial
  · intro q hq
    have hne : q ≠ p := by rintro rfl; exact hq hp
    simp [Heap.put, hne]

theorem leaves_value {D : Ptr → Prop} {w0 w : World T} (h : HeapRel D w0 w) (p : Ptr) : Leaves (HeapRel D w0) (Run.value p w) := by
  unfold Run.value
  cases w.store.heap.load p <;> first | exact h | trivial

theorem leaves_deref {α : Type} {R : World T → Prop} {o : Option α} {w : World T} (h : R w) : Leaves R (Run.deref o w) := by
  cases o with
  | none => trivial
  | some a => exact h

theorem storeEach_leaves {ι : Type} {D : Ptr → Prop} {f : ι → Heap T → Res (Ptr × T)} (hf : ∀ i h p v, f i h = .ok (p, v) → D p) (l : List ι) :
    ∀ h0 h : Heap T, (∀ q, ¬ D q → h.val q = h0.val q) → Leaves (fun h1 : Heap T => ∀ q, ¬ D q → h1.val q = h0.val q) (Heap.storeEach f l h) := by
  induction l with
  | nil => exact fun _ _ h => h
  | cons i l ih =>
    intro h0 h hh
    unfold Heap.storeEach
    cases e : f i h with
    | err _ => exact hh
    | panic => trivial
    | ok pv =>
      obtain ⟨p, v⟩ := pv
      dsimp only
      unfold Heap.store
      split
      · trivial
      · refine ih h0 (h.put p v) fun q hq => ?_
        have hne : q ≠ p := by rintro rfl; exact hq (hf i h _ v e)
        simp [Heap.put, hne, hh q hq]

theorem leaves_loadFrom {D : Ptr → Prop} {w0 w : World T} (h : HeapRel D w0 w) {p t : Nat} (hp : ∀ q ∈ (w0.store.nodes p).mat.ops, D q) :
    Leaves (HeapRel D w0) (LayerM.loadFrom p t w) := by
  have hn : (w.store.nodes p).mat = (w0.store.nodes p).mat := by obtain ⟨_, rfl, _⟩ := h; rfl
  show Leaves _ (Run.heap ((w.store.nodes p).mat.loadFromTensor (w.store.nodes t).mat) w)
  refine leaves_heap h fun h0 => ?_
  unfold Mat.loadFromTensor
  split
  · exact fun _ _ => rfl
  · refine storeEach_leaves (fun i h' a v e => ?_) _ h0 h0 fun _ _ => rfl
    rw [hn] at e
    unfold Res.index at e
    cases e1 : (w0.store.nodes p).mat.ops[i]? with
    | none => rw [e1] at e; cases e
    | some b =>
      rw [e1] at e
      have e : (h'.loadAt (w.store.nodes t).mat.ops i).map (fun v => (b, v)) = .ok (a, v) := e
      cases e2 : h'.loadAt (w.store.nodes t).mat.ops i with
      | ok c => rw [e2] at e; cases e; exact hp _ (List.mem_of_getElem? e1)
      | err c => rw [e2] at e; cases e
      | panic => rw [e2] at e; cases e

theorem leaves_run {D : Ptr → Prop} {w0 w : World T} (h : HeapRel D w0 w) {g : Option (List (Op T))} (hg : ∀ ops, g = some ops → ∀ q r, Op.asg q r ∈ ops → D q) :
    Leaves (HeapRel D w0) (NetM.run g w) := by
  cases g with
  | none => trivial
  | some ops =>
    show Leaves _ (Run.heap (exec ops) w)
    refine leaves_heap h fun h0 => ?_
    replace hg := hg ops rfl
    clear h
    have : ∀ h1 : Heap T, (∀ q, ¬ D q → h1.val q = h0.val q) → Leaves (fun h1 : Heap T => ∀ q, ¬ D q → h1.val q = h0.val q) (exec ops h1) := by
      induction ops with
      | nil => exact fun _ h => h
      | cons o ops ih =>
        intro h1 hh
        unfold exec
        refine leaves_bind (R := fun h1 : Heap T => ∀ q, ¬ D q → h1.val q = h0.val q) ?_
          (fun _ h2 hh2 => ih (fun q r h => hg q r (by simp [h])) h2 hh2) fun _ h => h
        cases o with
        | nop p => exact hh
        | asg p r =>
          have hp := hg p r (by simp)
          have e0 : (Op.asg p r).cal h1 = (match r.eval h1 with
            | .ok v => h1.store p v
            | .err e => .err e h1
            | .panic => .panic) := rfl
          rw [e0]
          cases r.eval h1 with
          | err _ => exact hh
          | panic => trivial
          | ok v =>
            dsimp only
            unfold Heap.store
            split
            · trivial
            · intro q hq
              have hne : q ≠ p := by rintro rfl; exact hq hp
              simp [Heap.put, hne, hh q hq]
    exact this h0 fun _ _ => rfl

theorem leaves_fitOwn {D : Ptr → Prop} {w0 w : World T} (h : HeapRel D w0 w) {l : Nat}
    (hD : (w0.layers l).trainable = true → ∀ n, ((w0.layers l).weights = some n ∨ (w0.layers l).bias = some n) → ∀ q ∈ (w0.store.nodes n).mat.ops, D q) :
    Leaves (HeapRel D w0) (LayerM.fitOwn l w) := by
  have hl : w.layers l = w0.layers l := by obtain ⟨_, rfl, _⟩ := h; rfl
  unfold LayerM.fitOwn
  show Leaves (HeapRel D w0) ((if !(w.layers l).trainable then _ else _ : Run T Unit) w)
  rw [hl]
  cases ht : (w0.layers l).trainable with
  | false => exact h
  | true =>
    have hb : ∀ s, HeapRel D w0 s → Leaves (HeapRel D w0) ((match (w0.layers l).bias, (w0.layers l).nBias with
        | none, none => pure ()
        | some b, some nb => LayerM.loadFrom b nb
        | _, _ => Run.abort : Run T Unit) s) := by
      intro s hs
      cases hw : (w0.layers l).bias with
      | none =>
        cases hn : (w0.layers l).nBias with
        | none => exact hs
        | some b => trivial
      | some a =>
        cases hn : (w0.layers l).nBias with
        | none => trivial
        | some b => exact leaves_loadFrom hs (hD ht a (.inr hw))
    show Leaves (HeapRel D w0) ((match (w0.layers l).weights, (w0.layers l).nWeights with | some _, some _ => _ | _, _ => _ : Run T Unit) w)
    cases hw : (w0.layers l).weights with
    | none => exact hb _ h
    | some a =>
      cases hn : (w0.layers l).nWeights with
      | none => exact hb _ h
      | some b => exact leaves_then (leaves_loadFrom h (hD ht a (.inl hw))) fun _ s hs => hb s hs

theorem OnPath.from {w : World T} {l p k : Nat} (h : OnPath w p k) (hp : (w.layers l).pre = some p) : OnPath w l k := by
  induction h with
  | here => exact .pre .here hp
  | pre _ h ih => exact .pre ih h

theorem leaves_fit {D : Ptr → Prop} {w0 : World T} (n : Nat) : ∀ (l : Nat) (w : World T), HeapRel D w0 w →
    (∀ k, OnPath w0 l k → (w0.layers k).trainable = true → ∀ n, ((w0.layers k).weights = some n ∨ (w0.layers k).bias = some n) → ∀ q ∈ (w0.store.nodes n).mat.ops, D q) →
    Leaves (HeapRel D w0) (LayerM.fit n l w) := by
  induction n with
  | zero => intro l w _ _; trivial
  | succ n ih =>
    intro l w h hD
    have hl : w.layers l = w0.layers l := by obtain ⟨_, rfl, _⟩ := h; rfl
    unfold LayerM.fit
    show Leaves (HeapRel D w0) ((match (w.layers l).pre with | some p => _ | none => _ : Run T Unit) w)
    rw [hl]
    cases hp : (w0.layers l).pre with
    | none => exact leaves_fitOwn h (hD l .here)
    | some p =>
      have := ih p w h fun k hk => hD k (OnPath.from hk hp)
      refine leaves_then (R := HeapRel D w0) ?_ fun _ s hs => leaves_fitOwn hs (hD l .here)
      unfold LayerM.ignoreErr
      cases e : LayerM.fit n p w with
      | ok _ _ => rw [e] at this; exact this
      | err _ _ => rw [e] at this; exact this
      | panic => trivial

/-- the scalars that training may change -/
def TrainCell (w : World T) (m : Nat) (q : Ptr) : Prop := FitCell w m q ∨ WorkCell w m q

theorem leaves_execFit {m tx ty : Nat} {w0 w : World T} (h : HeapRel (TrainCell w0 m) w0 w) :
    Leaves (HeapRel (TrainCell w0 m) w0) (NetM.execFit m tx ty w) := by
  have hn : w.nets = w0.nets := by obtain ⟨_, rfl, _⟩ := h; rfl
  show Leaves _ ((do
    NetM.run (w.nets m).resetFit
    let i ← Run.deref (w.nets m).input
    LayerM.loadFrom i tx
    let t ← Run.deref (w.nets m).target
    LayerM.loadFrom t ty
    NetM.run (w.nets m).ff
    NetM.run (w.nets m).calDif
    NetM.run (w.nets m).bp
    let last ← Run.deref (w.nets m).last
    let n ← Run.fuel
    LayerM.fit n last : Run T Unit) w)
  rw [hn]
  refine leaves_then (R := HeapRel (TrainCell w0 m) w0) (leaves_run h fun g hg q r hq => .inr (.inr (.inr (.inr ⟨g, r, .inl hg, hq⟩)))) fun _ s hs => ?_
  cases hi : (w0.nets m).input with
  | none => trivial
  | some i =>
  show Leaves (HeapRel (TrainCell w0 m) w0) ((LayerM.loadFrom i tx >>= _ : Run T Unit) s)
  refine leaves_then (R := HeapRel (TrainCell w0 m) w0) (leaves_loadFrom hs fun q hq => .inr (.inl ⟨i, .inl hi, hq⟩)) fun _ s hs => ?_
  cases ht : (w0.nets m).target with
  | none => trivial
  | some t =>
  show Leaves (HeapRel (TrainCell w0 m) w0) ((LayerM.loadFrom t ty >>= _ : Run T Unit) s)
  refine leaves_then (R := HeapRel (TrainCell w0 m) w0) (leaves_loadFrom hs fun q hq => .inr (.inl ⟨t, .inr ht, hq⟩)) fun _ s hs => ?_
  refine leaves_then (R := HeapRel (TrainCell w0 m) w0) (leaves_run hs fun g hg q r hq => .inr (.inr (.inr (.inr ⟨g, r, .inr (.inl hg), hq⟩)))) fun _ s hs => ?_
  refine leaves_then (R := HeapRel (TrainCell w0 m) w0) (leaves_run hs fun g hg q r hq => .inr (.inr (.inr (.inr ⟨g, r, .inr (.inr (.inl hg)), hq⟩)))) fun _ s hs => ?_
  refine leaves_then (R := HeapRel (TrainCell w0 m) w0) (leaves_run hs fun g hg q r hq => .inr (.inr (.inr (.inr ⟨g, r, .inr (.inr (.inr hg)), hq⟩)))) fun _ s hs => ?_
  cases hl : (w0.nets m).last with
  | none => trivial
  | some l =>
  show Leaves (HeapRel (TrainCell w0 m) w0) ((Run.fuel >>= fun n => LayerM.fit n l : Run T Unit) s)
  refine leaves_then (R := HeapRel (TrainCell w0 m) w0) (show Leaves _ (Run.fuel s) from hs) fun n s hs => ?_
  exact leaves_fit n l s hs fun k hk ht a ha q hq => .inl ⟨l, k, a, hl, hk, ht, ha, hq⟩

theorem leaves_trainOne {m tx ty : Nat} {alpha momentum : T} {w : World T} (hbp : (w.nets m).bp ≠ none) :
    Leaves (HeapRel (TrainCell w m) w) (NetM.trainOne m tx ty alpha momentum w) := by
  obtain ⟨g, hg⟩ := Option.ne_none_iff_exists'.1 hbp
  show Leaves (HeapRel (TrainCell w m) w) ((match (w.nets m).bp with | none => _ | some _ => _ : Run T T) w)
  rw [hg]
  show Leaves (HeapRel (TrainCell w m) w) ((Run.setValue (w.nets m).alpha alpha >>= _ : Run T T) w)
  refine leaves_then (R := HeapRel (TrainCell w m) w) (leaves_setValue (D := TrainCell w m) (HeapRel.refl _ w) (.inr (.inr (.inl rfl))) alpha) fun _ s hs => ?_
  refine leaves_then (R := HeapRel (TrainCell w m) w) (leaves_setValue hs (.inr (.inr (.inr (.inl rfl)))) momentum) fun _ s hs => ?_
  refine leaves_then (R := HeapRel (TrainCell w m) w) (leaves_execFit hs) fun _ s hs => ?_
  exact leaves_then (R := HeapRel (TrainCell w m) w) (show Leaves _ (Run.net m s) from hs) fun _ s hs => leaves_value hs _

theorem leaves_train {m : Nat} {inputs targets : List Nat} {epochs batch : Nat} {alpha momentum : T} {draw : Nat → Nat} {w : World T}
    (hbp : (w.nets m).bp ≠ none) :
    Leaves (HeapRel (TrainCell w m) w) (NetM.train m inputs targets epochs batch alpha momentum draw w) := by
  obtain ⟨g, hg⟩ := Option.ne_none_iff_exists'.1 hbp
  unfold NetM.train
  split
  · exact HeapRel.refl _ w
  show Leaves (HeapRel (TrainCell w m) w) ((match (w.nets m).bp with | none => _ | some _ => _ : Run T Unit) w)
  rw [hg]
  show Leaves (HeapRel (TrainCell w m) w) ((Run.setValue (w.nets m).alpha alpha >>= _ : Run T Unit) w)
  refine leaves_then (R := HeapRel (TrainCell w m) w) (leaves_setValue (D := TrainCell w m) (HeapRel.refl _ w) (.inr (.inr (.inl rfl))) alpha) fun _ s hs => ?_
  refine leaves_then (R := HeapRel (TrainCell w m) w) (leaves_setValue hs (.inr (.inr (.inr (.inl rfl)))) momentum) fun _ s hs => ?_
  obtain ⟨bt, hbt⟩ : ∃ bt, bt = (if batch = 0 then inputs.length else batch) := ⟨_, rfl⟩
  rw [← hbt]
  split
  · trivial
  refine leaves_then (R := HeapRel (TrainCell w m) w) ?_ fun _ s hs => ?_
  · unfold NetM.trainLoop
    have : ∀ (l : List Nat) s, HeapRel (TrainCell w m) w s → Leaves (HeapRel (TrainCell w m) w) (Run.each l (fun k => do
        let x ← Run.lift (Res.index inputs k)
        let y ← Run.lift (Res.index targets k)
        NetM.execFit m x y) s) := by
      intro l
      induction l with
      | nil => exact fun s h => h
      | cons i l ih =>
        intro s hs
        refine leaves_then (R := HeapRel (TrainCell w m) w) ?_ fun _ s hs => ih s hs
        refine leaves_then (R := HeapRel (TrainCell w m) w) ?_ fun x s hs => ?_
        · show Leaves _ (Out.ofRes s (Res.index inputs i))
          cases Res.index inputs i <;> first | exact hs | trivial
        refine leaves_then (R := HeapRel (TrainCell w m) w) ?_ fun y s hs => leaves_execFit hs
        show Leaves _ (Out.ofRes s (Res.index targets i))
        cases Res.index targets i <;> first | exact hs | trivial
    exact this _ s hs
  · exact leaves_then (R := HeapRel (TrainCell w m) w) (leaves_value hs _) fun _ s hs => hs

theorem anyTrain_frame {m : Nat} {a b : World T} (hbp : (a.nets m).bp ≠ none) (h : AnyTrain m a b) : HeapRel (TrainCell a m) a b := by
  cases h with
  | one he => exact leaves_ends (leaves_trainOne hbp) he
  | many he => exact leaves_ends (leaves_train hbp) he

theorem OnPath.congr {a b : World T} (hl : b.layers = a.layers) {l k : Nat} : OnPath b l k ↔ OnPath a l k := by
  constructor
  · intro h
    induction h with
    | here => exact .here
    | pre _ h ih => exact .pre ih (by rw [← hl]; exact h)
  · intro h
    induction h with
    | here => exact .here
    | pre _ h ih => exact .pre ih (by rw [hl]; exact h)

theorem anyTrains_frame {m : Nat} {a b : World T} (hbp : (a.nets m).bp ≠ none) (h : AnyTrains m a b) : HeapRel (TrainCell a m) a b := by
  induction h with
  | none => exact HeapRel.refl _ _
  | more _ h ih =>
    obtain ⟨h1, rfl, v1⟩ := ih
    obtain ⟨h2, rfl, v2⟩ := anyTrain_frame (by exact hbp) h
    refine ⟨h2, rfl, fun q hq => (v2 q fun hc => hq ?_).trans (v1 q hq)⟩
    rcases hc with ⟨l, k, n, c1, c2, c3⟩ | hc
    · exact .inl ⟨l, k, n, c1, (OnPath.congr (a := a) (b := { a with store := { a.store with heap := h1 } }) rfl).1 c2, c3⟩
    · exact .inr hc

end Godeep
