import Verif.Lemmas.TrainNet
/-
  Networks of dense layers through any number of training steps.
-/
set_option linter.unusedSectionVars false

namespace Godeep
open Spec GoNum

variable {T : Type} [GoNum T]

/-- a state after any number of steps before `CompileBackPropagation` -/
structure Pre (w0 w1 : World T) (m N : Nat) (d : CData T) (a : World T) : Prop where
  live : Live w0 w1 m d a
  lay : ∀ l, w0.layerNext ≤ l → l < w1.layerNext → (a.layers l).tr = (w1.layers l).tr
  net : a.nets m = w1.nets m
  ref : ∀ k ≤ N, a.store.heap.val (w1.layers (d.b + k)).ref = w1.store.heap.val (w1.layers (d.b + k)).ref

section
variable {shape : List Nat} {ds : List (Nat × Activation T)} {m : Nat} {d : CData T} {L : Nat → DLayer} {acts : Nat → Activation T}
  {w0 w1 : World T}

theorem DNet.ref (D : DNet shape ds m d L acts w0 w1) {k : Nat} (hk : k ≤ ds.length) {q : Ptr} (hq : q = (w1.layers (d.b + k)).ref) :
    w0.store.heap.next ≤ q ∧ q < w1.store.heap.next ∧ q ∉ d.inM.ops ∧ q ∉ dsts d.ops ∧ ∀ p ∈ d.ps, ∀ y ∈ p, q ∉ y.ops := by
  subst hq
  obtain ⟨_, _, _, _, h5, h6, h7, h8⟩ := D.made.flags k (by rw [List.length_map]; exact hk)
  have C := D.made.comp
  have := C.hi
  refine ⟨h8, by omega, h6, fun h => ?_, fun p hp y hy h => ?_⟩
  · rcases C.stage.dst _ h with h | h
    · omega
    · exact h7 h
  · have := C.stage.par p hp y hy _ h; omega

theorem pre_step (D : DNet shape ds m d L acts w0 w1) {a b : World T} (P : Pre w0 w1 m ds.length d a) (s : Step w0 w1 m a b) :
    Pre w0 w1 m ds.length d b := by
  have hb := live_step D.made P.live s
  cases s with
  | use s =>
    have t := touch_use D.made P.live s
    refine ⟨hb, fun l h1 h2 => (t.layers l).trans (P.lay l h1 h2), t.nets.trans P.net, fun k hk => ?_⟩
    obtain ⟨r1, r2, r3, r4, r5⟩ := D.ref hk rfl
    rw [t.val _ (lt_of_lt_of_le r2 P.live.ext.next) r3 r4 r5, P.ref k hk]
  | elsewhere h1 h2 h0 h3 h4 h5 h6 h7 =>
    refine ⟨hb, fun l l1 l2 => by rw [h5 l l1 l2, P.lay l l1 l2], h6.trans P.net, fun k hk => ?_⟩
    obtain ⟨r1, r2, _⟩ := D.ref hk rfl
    rw [h7 _ (by rintro (h | h) <;> omega), P.ref k hk]

theorem pre_steps (D : DNet shape ds m d L acts w0 w1) {a : World T} (s : Steps w0 w1 m w1 a) : Pre w0 w1 m ds.length d a := by
  have h0 : Pre w0 w1 m ds.length d w1 :=
    ⟨⟨Ext.refl _, fun _ _ _ => rfl, rfl, D.made.comp.kept, le_refl _⟩, fun _ _ _ => rfl, rfl, fun _ _ => rfl⟩
  generalize hw : w1 = w at s h0
  revert h0
  induction s with
  | none => subst hw; exact fun h => h
  | more _ h2 ih => subst hw; exact fun h0 => pre_step D (ih h0) h2

theorem DNet.range (D : DNet shape ds m d L acts w0 w1) {k : Nat} (hk : k ≤ ds.length) : w0.layerNext ≤ d.b + k ∧ d.b + k < w1.layerNext := by
  have h1 := D.made.base
  have h2 := D.made.next
  rw [List.length_map] at h2
  omega

/-- the state before `CompileBackPropagation` -/
theorem DNet.bin (D : DNet shape ds m d L acts w0 w1) (hne : 0 < ds.length) (hwid : ∀ e ∈ ds, 0 < e.1) {a : World T}
    (P : Pre w0 w1 m ds.length d a) : BIn ds m d.b L acts d.inM d.lo d.hi a := by
  have C := P.live.comp D.made
  have hlen : (ds.map dl).length = ds.length := List.length_map ..
  have hl : ∀ k ≤ ds.length, (a.layers (d.b + k)).tr = (w1.layers (d.b + k)).tr := fun k hk => P.lay _ (D.range hk).1 (D.range hk).2
  refine ⟨D.dat.later P.live.ext (fun k hk => Layer.fwd_of_tr (hl k hk)) P.ref, D.set, hne, hwid, C.hi.2, C.pos, ?_, ?_, fun j hj => ?_,
    fun j hj => ?_, ?_⟩
  · rw [C.last, hlen]
  · rw [C.output, D.out]
  · exact (congrArg Layer.bp (hl j hj) :).trans (D.fresh j hj).1
  · exact (congrArg Layer.der (hl j hj.le) :).trans (D.fresh j hj.le).2.1
  · have h1 := (D.range (le_refl ds.length)).2
    have := P.live.layerNext
    omega

end

/-- the scalars that training writes -/
structure TW (d : CData T) (e : TData T) (q : Ptr) : Prop where
  w : q ∈ d.inM.ops ∨ q ∈ e.tM.ops ∨ q ∈ dsts d.ops ∨ q ∈ dsts e.cd ∨ q ∈ dsts e.bp ∨ q ∈ dsts e.rf ∨ q = e.alpha ∨ q = e.momentum ∨
    ∃ p ∈ d.ps, ∃ y ∈ p, q ∈ y.ops

/-- a state after any number of steps after `CompileBackPropagation` -/
structure TLive (w0 w1 wa wb : World T) (m N : Nat) (d : CData T) (e : TData T) (a : World T) : Prop where
  live : Live w0 w1 m d a
  ext : Ext wb a
  lay : ∀ l, w0.layerNext ≤ l → l < w1.layerNext → (a.layers l).tr = (wb.layers l).tr
  net : a.nets m = wb.nets m
  zero : ∀ q, wa.store.heap.next ≤ q → q < wb.store.heap.next → ¬ TW d e q → a.store.heap.val q = GoNum.zero

/-- a network of dense layers prepared for training -/
structure TNet (shape : List Nat) (ds : List (Nat × Activation T)) (m : Nat) (d : CData T) (L : Nat → DLayer) (acts : Nat → Activation T)
    (e : TData T) (w0 w1 wa wb : World T) : Prop where
  net : DNet shape ds m d L acts w0 w1
  pre : Pre w0 w1 m ds.length d wa
  built : TBuilt ds m d.b L acts e wa wb
  stat : TStat ds d.b L acts d.inM d.lo d.hi d.ops e wa.store.heap.next wb.store.heap.next

section
variable {shape : List Nat} {ds : List (Nat × Activation T)} {m : Nat} {d : CData T} {L : Nat → DLayer} {acts : Nat → Activation T}
  {e : TData T} {w0 w1 wa wb : World T}

theorem DNet.tnet (D : DNet shape ds m d L acts w0 w1) (hne : 0 < ds.length) (hwid : ∀ e ∈ ds, 0 < e.1)
    (P : Pre w0 w1 m ds.length d wa) : ∃ e wb, NetM.compileBP m wa = .ok () wb ∧ TNet shape ds m d L acts e w0 w1 wa wb := by
  have I := D.bin hne hwid P
  obtain ⟨_, wb, h1, e, B⟩ := wp_total (compileBP_ok I)
  refine ⟨e, wb, h1, D, P, B, ?_⟩
  exact ⟨D.set, I.le, hwid, hne, D.ffdst, D.fffine, D.ffeqs, B.tshape, B.tnd, B.treg, B.cdone, B.cells, B.bp, B.rf, B.le⟩

theorem TNet.start (N : TNet shape ds m d L acts e w0 w1 wa wb) : TLive w0 w1 wa wb m ds.length d e wb := by
  have P := N.pre
  have B := N.built
  refine ⟨⟨P.live.ext.trans B.wide.ext, fun l h1 h2 => (B.fwd l).trans (P.live.layers l h1 h2), ?_, fun q c h => (N.net.noK q c h).elim, ?_⟩,
    Ext.refl _, fun _ _ _ => rfl, rfl, fun q h1 h2 _ => B.wide.zero q h1 h2⟩
  · rw [B.net]; exact P.live.nets
  · rw [B.wide.layerNext]; exact P.live.layerNext

end
end Godeep
