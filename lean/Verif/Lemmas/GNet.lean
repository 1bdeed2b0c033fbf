import Verif.Lemmas.GBuild
import Verif.Lemmas.TrainLive
/-
  Sequential networks of any layers before training.
-/
set_option linter.unusedSectionVars false

namespace Godeep
open Spec GoNum

variable {T : Type} [GoNum T]

/-- a compiled sequential network -/
structure GNet (shape : List Nat) (ls : List (LSpec T)) (m : Nat) (d : CData T) (L : Nat → GLayer) (w0 w1 : World T) : Prop where
  made : Made w0 w1 m shape ls d
  sep : GSep ls L d.lo
  dat : GAt shape ls d.b L .linear d.lo w1
  apart : ∀ j ≤ ls.length, ∀ q ∈ (L j).dM.ops, q < d.hi ∧ q ∉ dsts d.ops ∧ ∀ c, ¬ d.K q c
  run : ∀ h h' x pv, d.hi ≤ h.next → (∀ q c, d.K q c → h.val q = c) → Holds h d.inM x →
    List.Forall₂ (List.Forall₂ (Holds h)) ((List.range ls.length).map fun k => (L (k + 1)).ps) pv → exec d.ops h = .ok () h' →
    (∀ k ≤ ls.length, Holds h' (L k).oM (netFn (ls.take k) (pv.take k) x)) ∧
    ∀ k s, ls[k]? = some s →
      (s.weighted = true → Holds h' (L (k + 1)).nM (s.neta (pv.getD k []) (netFn (ls.take k) (pv.take k) x))) ∧
      (s = .norm ∨ s = .eNorm → h'.val (L (k + 1)).mx =
        max1 ((netFn (ls.take k) (pv.take k) x).flat.map fun v => if lt v zero then GoNum.neg v else v))
  inp : (L 0).out = d.inp ∧ (L 0).oM = d.inM
  out : (L ls.length).out = d.out ∧ (L ls.length).oM = d.outM
  ps : d.ps = (List.range ls.length).map fun k => (L (k + 1)).ps
  low : ∀ k s, ls[k]? = some s → (s.weighted = true → ∀ q ∈ (L (k + 1)).nM.ops, d.lo ≤ q) ∧ (s = .norm ∨ s = .eNorm → d.lo ≤ (L (k + 1)).mx)
  fresh : ∀ j ≤ ls.length, (w1.layers (d.b + j)).bp = false ∧ (w1.layers (d.b + j)).der = none ∧ (w1.layers (d.b + j)).nBias = none
  net : (w1.nets m).bp = none

theorem gnet_made (hlaw : eq (add zero one) (zero : T) = false) {shape : List Nat}
    {ls : List (LSpec T)} {w0 : World T} (hpos : 0 < w0.store.heap.next) (hg : ∀ s ∈ ls, FFGood s) (hfit : Fits ls shape) :
    wp True (compiled shape ls) (fun m w1 => ∃ d L, GNet shape ls m d L w0 w1) w0 := by
  refine wp_mono (compiled_run hlaw hpos hg hfit) ?_
  rintro m w1 ⟨d, ws, wa, wb, M, S, R, hlo, hhi⟩
  obtain ⟨⟨L, F⟩, Q⟩ := gff_trace R.all.trace R.seq (fun k hk => (R.refval k hk).2) R.refinj
  have xb : Ext wb w1 := by
    have := R.fin.ext
    exact ⟨this.next, this.nodeNext, this.kind, this.frozen⟩
  have C := M.comp
  obtain ⟨x1, _, _, _, _, _, x7⟩ := R.apart
  have e1 : ∀ l, w1.layers l = wb.layers l := fun l => by rw [R.layers]
  have xab : wa.store.heap.next ≤ wb.store.heap.next := F.grow.next
  have ap : ∀ j ≤ ls.length, ∀ q ∈ (L j).dM.ops, d.lo ≤ q := fun j hj q hq => by rw [hlo]; exact (F.apart j hj q hq).1
  have kind : ∀ l, (w1.layers l).kind = (wa.layers l).kind ∧ (w1.layers l).pre = (wa.layers l).pre ∧ (w1.layers l).act = (wa.layers l).act ∧
      (w1.layers l).bp = (wa.layers l).bp := fun l => by
    have := R.all.same l
    rw [e1]; exact ⟨this.1, this.2.1, this.2.2.1, this.2.2.2.2.1⟩
  have act0 : (wa.layers d.b).act = .linear := by
    obtain ⟨bb, r, i, e⟩ := x7 d.b
    obtain ⟨x, hx⟩ := S.lay0
    rw [e, hx]; rfl
  have st : ∀ k s, ls[k]? = some s → GStep s (d.b + 1 + k) (L k) (L (k + 1)) w1 := fun k s hs =>
    (F.step k s hs).ext xb (by rw [e1])
  have hps : d.ps = (List.range ls.length).map fun k => (L (k + 1)).ps := by
    rw [C.par]
    refine List.map_congr_left fun k hk => ?_
    have hk := List.mem_range.1 hk
    exact (st k _ (List.getElem?_eq_getElem hk)).par
  have hout : (L ls.length).out = d.out := by
    have := M.out
    rw [e1, (F.lay _ (le_refl _)).1] at this
    exact Option.some.inj this
  have hv : ∀ q, q < wb.store.heap.next → w1.store.heap.val q = wb.store.heap.val q := fun q hq =>
    R.fin.val q hq (fun h => h)
  refine ⟨d, L, M, ⟨ap, fun j hj q hq => (F.apart j hj q hq).2.2.2.1, fun j hj q hq => (F.apart j hj q hq).2.2.2.2, F.disj,
    fun k hk => ⟨(F.shape k hk).2, (F.dif k hk).2.2⟩⟩, ⟨⟨C.pos, ⟨?_, ?_, ?_⟩, ?_, fun k s hs => ?_, fun k hk => (F.out k hk).ext xb, hfit,
    fun k hk => (F.shape k hk).1⟩, le_trans C.hi.1 C.hi.2, fun k hk => ?_, st, fun k s hs => ?_, fun k hk => ?_, fun k hk h => ?_⟩,
    fun j hj q hq => ?_, ?_, ⟨?_, F.first.2.1⟩, ⟨hout, ?_⟩, hps, fun k s hs => ?_, fun j hj => ?_, ?_⟩
  · rw [(kind _).1]; exact R.seq.kind
  · rw [(kind _).2.1]; exact R.seq.pre
  · rw [(kind _).2.2.1]; exact act0
  · rw [e1, F.first.2.2.1, F.first.1]
  · have A := R.seq.lay k s hs
    have hk := (List.getElem?_eq_some_iff.1 hs).1
    obtain ⟨k1, k2, k3, _⟩ := kind (d.b + 1 + k)
    have G := st k s hs
    refine ⟨by rw [k1, A.kind], ?_, by rw [k3, A.act], G.input, ?_, G.neta⟩
    · rw [k2, A.pre]; congr 1; omega
    · have := (F.lay (k + 1) hk).1
      rw [e1, ← this]; congr 2; omega
  · obtain ⟨f1, f2, f3⟩ := F.dif k hk
    exact ⟨by rw [e1]; exact (F.lay k hk).2.1, f1.ext xb, by rw [xb.kind _ f1.lt, f2]⟩
  · have := C.pshape k s hs
    rw [(st k s hs).par] at this
    rw [this, (F.shape k (List.getElem?_eq_some_iff.1 hs).1.le).1]
  · obtain ⟨_, _, f3, _, f5, _⟩ := M.flags k hk
    refine ⟨f3, f5, ?_⟩
    obtain ⟨r, hr, r1, r2, r3⟩ := Q.root k hk
    refine ⟨r, by omega, ?_⟩
    rw [hv _ (by rw [hlo] at f5; omega), e1, r1]
    exact Q.count r (by omega) r3
  · obtain ⟨_, _, _, _, f5, _⟩ := M.flags k hk
    obtain ⟨r, hr, r1, r2, r3⟩ := Q.root k hk
    have : r = k := by
      by_contra hne
      have h2 := r2 (k - 1) (by omega) (by omega)
      rcases h with h | h
      · omega
      · exact h h2
    subst this
    rw [hv _ (by rw [hlo] at f5; omega), e1, r1]
    exact Q.count r hk h
  · obtain ⟨_, a2, a3, _⟩ := F.apart j hj q hq
    refine ⟨?_, a2, a3⟩
    rw [hhi]
    exact ((F.dif j hj).1.good.valid q hq).2
  · intro h h' x pv hn hK hx hp he
    exact F.run h h' x pv (by rw [← hhi]; exact hn) hK hx hp he
  · exact F.first.1
  · rw [← C.rout.mat, ← hout, ((F.out _ (le_refl _)).ext xb).mat]
  · rw [hlo]
    exact ⟨(F.low k s hs).1, (F.low k s hs).2.2⟩
  · obtain ⟨bb, r, i, e⟩ := x7 (d.b + j)
    have hf : (ws.layers (d.b + j)).bp = false ∧ (ws.layers (d.b + j)).der = none ∧ (ws.layers (d.b + j)).nBias = none := by
      rcases Nat.eq_zero_or_pos j with h | h
      · subst h
        obtain ⟨x, hx⟩ := S.lay0
        rw [Nat.add_zero, hx]; exact ⟨rfl, rfl, rfl⟩
      · have hj' : j - 1 < ls.length := by omega
        obtain ⟨o, ho⟩ := S.layk (j - 1) _ (List.getElem?_eq_getElem hj')
        rw [show d.b + 1 + (j - 1) = d.b + j by omega] at ho
        rw [ho]
        cases ls[j - 1] <;> exact ⟨rfl, rfl, rfl⟩
    obtain ⟨_, _, l3, l4⟩ := F.lay j hj
    rw [(kind _).2.2.2, e1, l3, l4, e]
    exact hf
  · obtain ⟨t, tM, _, _, _, _, hn⟩ := R.net
    rw [hn, S.net]; rfl

end Godeep
