import Verif.Props.Joined
import Verif.Props.Predict
import Verif.Props.TrainKinds
import Verif.Lemmas.JFinal
/-
  C77: `CompileBackPropagation` changes no prediction.
-/
set_option linter.unusedSectionVars false

namespace Godeep.Props
open Godeep Spec GoNum

variable {T : Type} [GoNum T]

theorem compiled_leaf {shape : List Nat} {ls : List (LSpec T)} {m : Nat} {d : CData T} {ws wa wb w1 : World T}
    (S : SeqNew shape ls m d.b d.inp d.inM ws) (R : CompileRun shape ls m d.b d.inp d.inM d.ops d.out d.outM d.K ws wa wb w1) :
    Source w1 (d.b + ls.length) (d.b + ls.length) ∧ LeafDif w1 (d.b + ls.length) := by
  obtain ⟨x01, x0', hval, hlay, hln, hnn, hsame⟩ := R.apart
  have A := R.all
  have x2' : Ext wb w1 := by
    have := R.fin.ext
    exact ⟨this.next, this.nodeNext, this.kind, this.frozen⟩
  have hkp : ∀ l, (w1.layers l).kind = (ws.layers l).kind ∧ (w1.layers l).pre = (ws.layers l).pre := fun l => by
    obtain ⟨_, _, _, e⟩ := hsame l
    rw [R.layers, (A.same l).1, (A.same l).2.1, e]; exact ⟨rfl, rfl⟩
  refine ⟨⟨?_, Or.inl rfl⟩, ?_⟩
  · rcases Nat.eq_zero_or_pos ls.length with h | h
    · left; rw [h, Nat.add_zero, (hkp _).2]; exact S.pre
    · right
      have := (S.toSeqBase.at (k := ls.length - 1) (by omega)).kind
      rw [show d.b + 1 + (ls.length - 1) = d.b + ls.length by omega] at this
      exact ⟨_, by rw [(hkp _).1]; exact this⟩
  · obtain ⟨⟨G, g⟩, -⟩ := gff_trace A.trace R.seq (fun k hk => (R.refval k hk).2) R.refinj
    have g1 := (g.lay ls.length (le_refl _)).2.1
    have g2 := g.dif ls.length (le_refl _)
    have : LeafDif wb (d.b + ls.length) := ⟨_, _, g1, g2.1, g2.2.1⟩
    exact this.ext x2' (by rw [R.layers])

/-- a compiled model after `CompileBackPropagation` -/
theorem live_compileBP {w0 w1 : World T} {m : Nat} {shape : List Nat} {ls : List (LSpec T)} {d : CData T}
    (M : Made w0 w1 m shape ls d) (hs : Source w1 (d.b + ls.length) (d.b + ls.length)) (hd : LeafDif w1 (d.b + ls.length))
    {a : World T} (L : Live w0 w1 m d a) : EndsIn (fun b => PredKept a b ∧ Live w0 w1 m d b) (NetM.compileBP m a) := by
  have C := L.comp M
  have hl := Layer.fwd_eq (L.layers (d.b + ls.length) (by rw [M.base]; omega) (by rw [M.base, M.next]; omega))
  refine (compileBP_keeps C.last ⟨?_, Or.inl rfl⟩ (hd.ext L.ext hl.2.2.2.2.2.2.2.1)).mono fun b k => ⟨k, ?_⟩
  · rw [hl.1, hl.2.1]; exact hs.1
  · refine ⟨L.ext.trans k.ext, fun l h1 h2 => ?_, ?_, fun q c h => ?_, ?_⟩
    · rw [← L.layers l h1 h2]
      have := congrArg Layer.fwd (k.layers l)
      exact this
    · rw [← L.nets]
      have := congrArg Net.fwd (k.nets m)
      exact this
    · rw [k.val q ?_, L.kept q c h]
      exact lt_of_lt_of_le (C.stage.keep q c h).2.1 C.hi.2
    · rw [k.layerNext]; exact L.layerNext

/-- C77: A program makes a sequential model of layers of any kinds and compiles it.  Whenever it then calls `CompileBackPropagation`, also if
that returns an error: all tensors that have been computed keep their elements, the weights and biases of the model are the same tensors with the same
values, and from then on `Predict` computes, in any later state, what it would have computed without the call: the composition of the layers'
functions with the weights and biases of that state. -/
theorem C77_predictions_kept (hlaw : eq (add zero one) (zero : T) = false) {shape : List Nat} {ls : List (LSpec T)}
    (hfit : Fits ls shape) (hsafe : Safe ls shape) {w0 : World T} (hpos : 0 < w0.store.heap.next) :
    ∃ m w1, compiled shape ls w0 = .ok m w1 ∧ ∀ w2, Steps w0 w1 m w1 w2 → ∀ w3, Ends (NetM.compileBP m w2) w3 →
      (∀ n x, n < w2.nodeNext → Spec.frozen w2.store n → Holds w2.store.heap (w2.store.nodes n).mat x →
        n < w3.nodeNext ∧ (w3.store.nodes n).mat = (w2.store.nodes n).mat ∧ Holds w3.store.heap (w3.store.nodes n).mat x) ∧
      (∀ pv, HasParams w2 m pv → HasParams w3 m pv) ∧
      ∀ w4, Steps w0 w1 m w3 w4 → ∀ t x pv, UserTensor w0 w1 w4 t x → x.shape = shape → HasParams w4 m pv →
        ∃ r w5, NetM.predict m t w4 = .ok r w5 ∧ UserTensor w0 w1 w5 r (netFn ls pv x) ∧ HasParams w5 m pv := by
  obtain ⟨m, w1, e, d, ws, wa, wb, M, S, R⟩ := wp_total (compiled_ok (w0 := w0) hlaw hpos (fun s _ => ffGood_all s) hfit)
  obtain ⟨hs, hd⟩ := compiled_leaf S R
  refine ⟨m, w1, e, fun w2 st w3 he => ?_⟩
  have L := live_steps M st
  have K := live_compileBP M hs hd L
  have K' : PredKept w2 w3 ∧ Live w0 w1 m d w3 := by
    rcases he with ⟨r, he⟩ | ⟨er, he⟩ <;> rw [he] at K <;> exact K
  obtain ⟨k, L3⟩ := K'
  refine ⟨fun n x h1 h2 h3 => ?_, fun pv hp => ?_, fun w4 st4 t x pv hu hx hp => ?_⟩
  · have := (k.frozen n h1 h2).2
    exact ⟨lt_of_lt_of_le h1 k.nodeNext, this, by rw [this]; exact h3.kept k.next fun q hq => k.val q (h3.valid q hq).2⟩
  · rw [L.hasParams M] at hp
    rw [L3.hasParams M]
    exact hp.imp fun _ _ h => h.imp fun _ _ h => h.kept k.next fun q hq => k.val q (h.valid q hq).2
  · have L4 : Live w0 w1 m d w4 := by
      clear hu hp
      induction st4 with
      | none => exact L3
      | more _ h ih => exact live_step M ih h
    have Q := live_predict M L4 hu hx
    have Q' : wp True (NetM.predict m t) (fun r b => Predicted m shape ls d x r w4 b ∧ Live w0 w1 m d b) w4 := by
      unfold wp at Q ⊢
      cases e : NetM.predict m t w4 with
      | ok _ _ => rw [e] at Q; exact Q
      | err _ _ => rw [e] at Q; exact (Q hsafe).elim
      | panic => rw [e] at Q; exact (Q hsafe).elim
    obtain ⟨r, w5, e5, P, _⟩ := wp_total Q'
    exact ⟨r, w5, e5, P.result M L4 hp, P.params M L4 hp⟩

attribute [local irreducible] compiled NetM.predict NetM.compile NetM.compileBP netFn in
/-- C77 applies when `CompileBackPropagation` fails: a convolution whose kernel is wider than high; `Predict` still works -/
example : ∃ m w1 e w3 x pv r w5, compiled [1, 2, 2] [.conv 1 2 1 1 1 .linear] (worldXY [1, 2, 2] [1, 1, 2]) = .ok m w1 ∧
    NetM.compileBP m w1 = .err e w3 ∧ HasParams w3 m pv ∧ NetM.predict m 0 w3 = .ok r w5 ∧
    UserTensor (worldXY [1, 2, 2] [1, 1, 2]) w1 w5 r (netFn [.conv 1 2 1 1 1 .linear] pv x) := by
  obtain ⟨⟨m, w1, e1, _, e, w3, e3, _⟩, _⟩ := C67_conv_cannot_train
  have hfit : Fits [.conv 1 2 1 1 1 (.linear : Activation Int)] [1, 2, 2] := by simp [Fits, LSpec.fits]
  have hsafe : Safe [.conv 1 2 1 1 1 (.linear : Activation Int)] [1, 2, 2] := by simp [Safe, LSpec.safe]
  have hh : Holds (worldXY [1, 2, 2] [1, 1, 2]).store.heap ((worldXY [1, 2, 2] [1, 1, 2]).store.nodes 0).mat
      (ofMat (worldXY [1, 2, 2] [1, 1, 2]).store.heap.val ((worldXY [1, 2, 2] [1, 1, 2]).store.nodes 0).mat) := by
    refine good_holds ⟨rfl, rfl, fun q hq => ?_⟩
    simp [worldXY, size, List.mem_range'_1] at hq
    exact ⟨by omega, by show q < 7; omega⟩
  obtain ⟨m', w1', e1', d, _, _, _, M, _⟩ :=
    wp_total (compiled_ok (w0 := worldXY [1, 2, 2] [1, 1, 2]) rfl (by decide) (fun s _ => ffGood_all s) hfit)
  rw [e1] at e1'; cases e1'
  have hu := user_made M (n := 0) (by decide) (frozen_leaf rfl) hh
  obtain ⟨hfz, he⟩ := M.apart.ext.frozen 0 (by decide) (frozen_leaf rfl)
  obtain ⟨m', w1', e1', H⟩ := C77_predictions_kept (w0 := worldXY [1, 2, 2] [1, 1, 2]) rfl hfit hsafe (by decide)
  rw [e1] at e1'; cases e1'
  obtain ⟨h1, h2, h3⟩ := H w1 .none w3 (Or.inr ⟨_, e3⟩)
  obtain ⟨a1, a2, a3⟩ := h1 0 _ hu.1 hfz hu.2.1
  obtain ⟨pv, hp, _⟩ := (live_steps M .none).someParams M
  obtain ⟨r, w5, e5, u5, _⟩ := h3 w3 .none 0 _ pv ⟨a1, a3, by rw [a2]; exact hu.2.2⟩ rfl (h2 pv hp)
  exact ⟨m, w1, e, w3, _, pv, r, w5, e1, e3, h2 pv hp, e5, u5⟩

end Godeep.Props
