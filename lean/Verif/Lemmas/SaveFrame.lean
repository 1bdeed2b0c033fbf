import Verif.Lemmas.SaveNet
import Verif.Lemmas.Run
/-
  What saving, loading and the resets leave unchanged, whatever they return.
-/
set_option linter.unusedSectionVars false

namespace Godeep
open Spec GoNum

variable {T : Type} [GoNum T]

/-- the state a call leaves, if it does not panic, satisfies `R` -/
def Leaves {σ α : Type} (R : σ → Prop) : Out σ α → Prop
  | .ok _ s => R s
  | .err _ s => R s
  | .panic => True

theorem leaves_ends {σ α : Type} {R : σ → Prop} {o : Out σ α} {s : σ} (h : Leaves R o) (he : Ends o s) : R s := by
  rcases he with ⟨r, rfl⟩ | ⟨e, rfl⟩ <;> exact h

theorem leaves_bind {σ α β : Type} {R S : σ → Prop} {o : Out σ α} {f : α → σ → Out σ β} (h : Leaves R o)
    (hf : ∀ a s, R s → Leaves S (f a s)) (hs : ∀ s, R s → S s) : Leaves S (o.bind f) := by
  cases o with
  | ok a s => exact hf a s h
  | err e s => exact hs s h
  | panic => trivial

theorem leaves_chain {σ : Type} {R : σ → Prop} {f : Nat → σ → Out σ Unit} : ∀ {ps : List Nat} {s : σ}, R s →
    (∀ p ∈ ps, ∀ s, R s → Leaves R (f p s)) → Leaves R (chain f ps s) := by
  intro ps
  induction ps with
  | nil => intro s h _; exact h
  | cons p ps ih =>
    intro s h hf
    exact leaves_bind (hf p (by simp) s h) (fun _ s hs => ih hs fun q hq => hf q (by simp [hq])) fun _ h => h

/-- only `saved` marks differ -/
def SaveRel (w w' : World T) : Prop :=
  ∃ g : Nat → Bool, w' = { w with layers := fun k => { w.layers k with saved := g k } }

section
variable [Bin T]

theorem save_frame {w0 : World T} (n : Nat) : ∀ (l : Nat) (s : World T × Sink), SaveRel w0 s.1 →
    Leaves (fun s => SaveRel w0 s.1) (LayerM.save n l s) := by
  induction n with
  | zero => intro l s _; trivial
  | succ n ih =>
    intro l s h
    rw [save_eq]
    split
    · exact h
    · refine leaves_bind (R := fun s : World T × Sink => SaveRel w0 s.1) ?_ ?_ fun _ h => h
      · refine leaves_chain (R := fun s : World T × Sink => SaveRel w0 s.1) ?_ fun p _ s hs => ih p s hs
        obtain ⟨g, e⟩ := h
        refine ⟨fun k => if k = l then true else g k, ?_⟩
        simp only [LayerM.modW, e]
        congr 1
        funext k
        by_cases hk : k = l <;> simp [hk]
      · intro _ s hs
        refine leaves_chain (R := fun s : World T × Sink => SaveRel w0 s.1) hs fun p _ s hs => ?_
        simp only [LayerM.saveTensor]
        cases (s.1.store.nodes p).mat.save s.1.store.heap s.2 <;> first | exact hs | trivial

theorem netSave_frame {m : Nat} {a b : World T} {k k' : Sink} (he : Ends (NetM.save m (a, k)) (b, k')) : SaveRel a b := by
  unfold NetM.save at he
  simp only at he
  cases h : (a.nets m).last with
  | none => rw [h] at he; rcases he with ⟨_, he⟩ | ⟨_, he⟩ <;> cases he
  | some l =>
    rw [h] at he
    exact leaves_ends (R := fun s : World T × Sink => SaveRel a s.1) (save_frame (a.layerNext + 1) l (a, k) ⟨fun k => (a.layers k).saved, rfl⟩) he

/-- only `loaded` marks and the scalars in `D` differ -/
def LoadRel (D : Ptr → Prop) (w w' : World T) : Prop :=
  ∃ (g : Nat → Bool) (h : Heap T), w' = { w with
      layers := fun k => { w.layers k with loaded := g k }, store := { w.store with heap := h } } ∧
    h.next = w.store.heap.next ∧ ∀ q, ¬ D q → h.val q = w.store.heap.val q

theorem loadOps_frame {D : Ptr → Prop} {h0 : Heap T} : ∀ (ps : List Ptr) (s : Heap T × List Byte), (∀ q ∈ ps, D q) →
    (s.1.next = h0.next ∧ ∀ q, ¬ D q → s.1.val q = h0.val q) →
    Leaves (fun s : Heap T × List Byte => s.1.next = h0.next ∧ ∀ q, ¬ D q → s.1.val q = h0.val q) (Mat.loadOps ps s) := by
  intro ps
  induction ps with
  | nil => intro s _ h; exact h
  | cons p ps ih =>
    rintro ⟨h, r⟩ hD hs
    unfold Mat.loadOps
    split
    · trivial
    · cases readElem T r with
      | ok v r' =>
        refine ih _ (fun q hq => hD q (by simp [hq])) ⟨hs.1, fun q hq => ?_⟩
        have : q ≠ p := fun e => hq (e ▸ hD p (by simp))
        simp only [Heap.put, if_neg this]
        exact hs.2 q hq
      | err e r' => exact hs
      | panic => trivial

theorem load_frame {D : Ptr → Prop} {w0 : World T} (n : Nat) : ∀ (l : Nat) (s : World T × List Byte),
    (∀ k, Rch (parents w0) l k → ∀ y ∈ ownTensors w0 k, ∀ q ∈ y.ops, D q) → LoadRel D w0 s.1 →
    Leaves (fun s => LoadRel D w0 s.1) (LayerM.load n l s) := by
  induction n with
  | zero => intro l s _ _; trivial
  | succ n ih =>
    intro l s hD h
    rw [load_eq]
    have h' := h
    obtain ⟨g, hp, e, hn, hv⟩ := h'
    have epar : parents s.1 l = parents w0 l := by rw [e]; rfl
    have eown : ownNodes (s.1.layers l) = ownNodes (w0.layers l) := by rw [e]; rfl
    split
    · exact h
    · refine leaves_bind (R := fun s : World T × List Byte => LoadRel D w0 s.1) ?_ ?_ fun _ h => h
      · refine leaves_chain (R := fun s : World T × List Byte => LoadRel D w0 s.1) ?_ fun p hp s hs => ih p s (fun k hk => hD k (.step (epar ▸ hp) hk)) hs
        refine ⟨fun k => if k = l then true else g k, hp, ?_, hn, hv⟩
        simp only [LayerM.modW, e]
        congr 1
        funext k
        by_cases hk : k = l <;> simp [hk]
      · intro _ s hs
        refine leaves_chain (R := fun s : World T × List Byte => LoadRel D w0 s.1) hs fun p hp s hs => ?_
        simp only [LayerM.loadTensor]
        rw [eown] at hp
        obtain ⟨g', hp', e', hn', hv'⟩ := hs
        have em : (s.1.store.nodes p).mat = (w0.store.nodes p).mat := by rw [e']
        have hc := loadOps_frame (D := D) (h0 := w0.store.heap) (s.1.store.nodes p).mat.ops (s.1.store.heap, s.2)
          (fun q hq => hD l (.refl l) (w0.store.nodes p).mat (by
            rw [ownTensors_eq]; exact List.mem_map.2 ⟨p, hp, rfl⟩) q (em ▸ hq)) (by rw [e']; exact ⟨hn', hv'⟩)
        have key : ∀ x : Heap T × List Byte, (x.1.next = w0.store.heap.next ∧ ∀ q, ¬ D q → x.1.val q = w0.store.heap.val q) →
            LoadRel D w0 { s.1 with store := { s.1.store with heap := x.1 } } := fun x hx =>
          ⟨g', x.1, by rw [e'], hx.1, hx.2⟩
        unfold Mat.load
        cases hc' : Mat.loadOps (s.1.store.nodes p).mat.ops (s.1.store.heap, s.2) with
        | ok _ x => rw [hc'] at hc; exact key x hc
        | err _ x => rw [hc'] at hc; exact key x hc
        | panic => trivial

theorem netLoad_frame {m : Nat} {a b : World T} {r r' : List Byte} (he : Ends (NetM.load m (a, r)) (b, r')) :
    ∃ (g : Nat → Bool) (h : Heap T), b = { a with
        layers := fun k => { a.layers k with loaded := g k }, store := { a.store with heap := h } } ∧
      h.next = a.store.heap.next ∧ ∀ q, (∀ l, (a.nets m).last = some l → ∀ k, Feeds a l k → ∀ y ∈ ownTensors a k, q ∉ y.ops) →
        h.val q = a.store.heap.val q := by
  unfold NetM.load at he
  simp only at he
  cases hl : (a.nets m).last with
  | none => rw [hl] at he; rcases he with ⟨_, he⟩ | ⟨_, he⟩ <;> cases he
  | some l =>
    rw [hl] at he
    obtain ⟨g, h, e, hn, hv⟩ := leaves_ends (R := fun s : World T × List Byte => LoadRel (fun q => ∃ k, Feeds a l k ∧ ∃ y ∈ ownTensors a k, q ∈ y.ops) a s.1) (load_frame (D := fun q => ∃ k, Feeds a l k ∧ ∃ y ∈ ownTensors a k, q ∈ y.ops) (w0 := a)
      (a.layerNext + 1) l (a, r) (fun k hk y hy q hq => ⟨k, feeds_iff.2 hk, y, hy, hq⟩)
      ⟨fun k => (a.layers k).loaded, a.store.heap, rfl, rfl, fun _ _ => rfl⟩) he
    refine ⟨g, h, e, hn, fun q hq => hv q ?_⟩
    rintro ⟨k, hk, y, hy, hqy⟩
    exact hq l rfl k hk y hy hqy

end

theorem resetSave_frame {w0 : World T} (n : Nat) : ∀ (l : Nat) (w : World T), SaveRel w0 w →
    Leaves (SaveRel w0) (LayerM.resetSave n l w) := by
  induction n with
  | zero => intro l w _; trivial
  | succ n ih =>
    intro l w h
    obtain ⟨g, e⟩ := h
    have h2 : SaveRel w0 { w with layers := fun k => if k = l then { w.layers k with saved := false } else w.layers k } := by
      refine ⟨fun k => if k = l then false else g k, ?_⟩
      rw [e]
      simp only
      congr 1
      funext k
      by_cases hk : k = l <;> simp [hk]
    show Leaves (SaveRel w0) ((match (({ w with layers := fun k => if k = l then { w.layers k with saved := false } else w.layers k } : World T).layers l).pre with
      | some p => LayerM.resetSave n p
      | none => pure () : Run T Unit) { w with layers := fun k => if k = l then { w.layers k with saved := false } else w.layers k })
    generalize ({ w with layers := fun k => if k = l then { w.layers k with saved := false } else w.layers k } : World T) = w2 at h2 ⊢
    cases (w2.layers l).pre with
    | some p => exact ih _ _ h2
    | none => exact h2

theorem netResetSave_frame {m : Nat} {a b : World T} (he : NetM.resetSave m a = .ok () b) : SaveRel a b := by
  have e : NetM.resetSave m a = (Run.deref (a.nets m).last a).bind fun l w => LayerM.resetSave (w.layerNext + 1) l w := rfl
  rw [e] at he
  cases h : (a.nets m).last with
  | none => rw [h] at he; cases he
  | some l =>
    rw [h] at he
    have := resetSave_frame (w0 := a) (a.layerNext + 1) l a ⟨fun k => (a.layers k).saved, rfl⟩
    have he' : LayerM.resetSave (a.layerNext + 1) l a = .ok () b := he
    rw [he'] at this
    exact this

/-- only `loaded` marks differ -/
def MarkRel (w w' : World T) : Prop :=
  ∃ g : Nat → Bool, w' = { w with layers := fun k => { w.layers k with loaded := g k } }

theorem resetLoad_frame {w0 : World T} (n : Nat) : ∀ (l : Nat) (w : World T), MarkRel w0 w →
    Leaves (MarkRel w0) (LayerM.resetLoad n l w) := by
  induction n with
  | zero => intro l w _; trivial
  | succ n ih =>
    intro l w h
    obtain ⟨g, e⟩ := h
    have h2 : MarkRel w0 { w with layers := fun k => if k = l then { w.layers k with loaded := false } else w.layers k } := by
      refine ⟨fun k => if k = l then false else g k, ?_⟩
      rw [e]
      simp only
      congr 1
      funext k
      by_cases hk : k = l <;> simp [hk]
    show Leaves (MarkRel w0) ((match (({ w with layers := fun k => if k = l then { w.layers k with loaded := false } else w.layers k } : World T).layers l).pre with
      | some p => LayerM.resetLoad n p
      | none => pure () : Run T Unit) { w with layers := fun k => if k = l then { w.layers k with loaded := false } else w.layers k })
    generalize ({ w with layers := fun k => if k = l then { w.layers k with loaded := false } else w.layers k } : World T) = w2 at h2 ⊢
    cases (w2.layers l).pre with
    | some p => exact ih _ _ h2
    | none => exact h2

theorem netResetLoad_frame {m : Nat} {a b : World T} (he : NetM.resetLoad m a = .ok () b) : MarkRel a b := by
  have e : NetM.resetLoad m a = (Run.deref (a.nets m).last a).bind fun l w => LayerM.resetLoad (w.layerNext + 1) l w := rfl
  rw [e] at he
  cases h : (a.nets m).last with
  | none => rw [h] at he; cases he
  | some l =>
    rw [h] at he
    have := resetLoad_frame (w0 := a) (a.layerNext + 1) l a ⟨fun k => (a.layers k).loaded, rfl⟩
    have he' : LayerM.resetLoad (a.layerNext + 1) l a = .ok () b := he
    rw [he'] at this
    exact this

/-- only `trainable` marks differ -/
def TrainRel (w w' : World T) : Prop :=
  ∃ g : Nat → Bool, w' = { w with layers := fun k => { w.layers k with trainable := g k } }

theorem setTrainable_frame {w0 : World T} {t : Bool} {x : Net T} (n : Nat) : ∀ (l : Option Nat) (w : World T), TrainRel w0 w →
    Leaves (TrainRel w0) (NetM.setTrainable.go t x n l w) := by
  induction n with
  | zero => intro l w _; trivial
  | succ n ih =>
    intro l w h
    cases l with
    | none => exact h
    | some l =>
      unfold NetM.setTrainable.go
      split
      · exact h
      · obtain ⟨g, e⟩ := h
        have h2 : TrainRel w0 { w with layers := fun k => if k = l then { w.layers k with trainable := t } else w.layers k } := by
          refine ⟨fun k => if k = l then t else g k, ?_⟩
          rw [e]
          simp only
          congr 1
          funext k
          by_cases hk : k = l <;> simp [hk]
        exact ih _ _ h2

theorem netSetTrainable_frame {m : Nat} {t : Bool} {a b : World T} (he : NetM.setTrainable m t a = .ok () b) : TrainRel a b := by
  have := setTrainable_frame (w0 := a) (t := t) (x := a.nets m) (a.layerNext + 1) (a.nets m).last a ⟨fun k => (a.layers k).trainable, rfl⟩
  have he' : NetM.setTrainable.go t (a.nets m) (a.layerNext + 1) (a.nets m).last a = .ok () b := he
  rw [he'] at this
  exact this

end Godeep
