import Verif.Lemmas.TrainSpec
/-
  Networks of dense layers before training.
-/
set_option linter.unusedSectionVars false

namespace Godeep
open Spec GoNum

variable {T : Type} [GoNum T]

theorem DSet.preact {ds : List (Nat × Activation T)} {m0 : Mat} {lo hi : Nat} {L : Nat → DLayer} (S : DSet ds m0 lo hi L)
    {k : Nat} {e : Nat × Activation T}
    (hk : ds[k]? = some e) {h : Heap T} {x W B : STensor T} (hx : Holds h (L k).oM x) (hw : Holds h (L (k + 1)).wM W)
    (hb : Holds h (L (k + 1)).bM B) {i : Nat} (hi : i < e.1) :
    Godeep.preact (L k).oM (L (k + 1)).wM (L (k + 1)).bM (size (L k).oM.shape) h.val i = (denseFn id W B x).get [i] := by
  have O := S.one k e hk
  unfold Godeep.preact
  rw [holds_cell hb (inRange1 O.sb hi), hx.shape]
  show _ = sum1 _
  congr 2
  apply List.map_congr_left
  intro j hj
  rw [List.mem_range, ← hx.shape] at hj
  rw [holds_cell hw (inRange2 O.sw hi hj), ← cell_unflat hj, holds_cell hx (unflat_inRange hj), hx.shape]
  rfl

/-- the output of the network -/
theorem DEqs.out {ds : List (Nat × Activation T)} {m0 : Mat} {lo hi : Nat} {L : Nat → DLayer} (S : DSet ds m0 lo hi L) {h : Heap T}
    (good : ∀ k ≤ ds.length, GoodMat h (L k).oM) (E : DEqs ds L h.val) : ∀ n k, k + n = ds.length → ∀ x pv, Holds h (L k).oM x →
      List.Forall₂ (List.Forall₂ (Holds h)) (parsFrom L k n) pv →
      Holds h (L ds.length).oM (netFn ((ds.drop k).map dl) pv x) := by
  intro n
  induction n with
  | zero =>
    intro k hk x pv hx hp
    have hk : k = ds.length := by omega
    subst hk
    simpa [netFn] using hx
  | succ n ih =>
    intro k hk x pv hx hp
    have hkl : k < ds.length := by omega
    obtain ⟨e, he⟩ : ∃ e, ds[k]? = some e := ⟨_, List.getElem?_eq_getElem hkl⟩
    have O := S.one k e he
    have hdrop : ds.drop k = e :: ds.drop (k + 1) := by
      rw [List.drop_eq_getElem_cons hkl]
      rw [List.getElem?_eq_getElem hkl] at he
      cases he; rfl
    have hpf : parsFrom L k (n + 1) = [(L (k + 1)).wM, (L (k + 1)).bM] :: parsFrom L (k + 1) n := rfl
    rw [hpf] at hp
    cases hp with
    | @cons _ p0 _ pv' hp1 hp2 =>
    obtain ⟨W, B, rfl, hW, hB⟩ : ∃ W B, p0 = [W, B] ∧ Holds h (L (k + 1)).wM W ∧ Holds h (L (k + 1)).bM B := by
      cases hp1 with
      | cons h1 h2 =>
        cases h2 with
        | cons h3 h4 =>
          cases h4
          exact ⟨_, _, rfl, h1, h3⟩
    rw [hdrop]
    refine ih (k + 1) (by omega) _ pv' ?_ hp2
    refine holds_of_cell (good (k + 1) hkl) (by rw [O.so]; show _ = B.shape; rw [← hB.shape, O.sb]) fun idx hi => ?_
    rw [O.so] at hi
    obtain ⟨i, h1, rfl⟩ := inRange_one hi
    rw [(E k e he i h1).2, (E k e he i h1).1, S.preact he hx hW hB h1]
    rfl

/-- a compiled network of dense layers -/
structure DNet (shape : List Nat) (ds : List (Nat × Activation T)) (m : Nat) (d : CData T) (L : Nat → DLayer) (acts : Nat → Activation T)
    (w0 w1 : World T) : Prop where
  made : Made w0 w1 m shape (ds.map dl) d
  noK : ∀ q c, ¬ d.K q c
  set : DSet ds d.inM d.lo d.hi L
  dat : DAt ds d.b L acts w1
  ffdst : ∀ q ∈ dsts d.ops, (∃ k < ds.length, q ∈ (L (k + 1)).oM.ops) ∨ ∃ k < ds.length, (L (k + 1)).lo ≤ q ∧ q < (L (k + 1)).hi ∧
    q ∉ (L (k + 1)).dM.ops ∧ q ∉ (L (k + 1)).wM.ops ∧ q ∉ (L (k + 1)).bM.ops
  fffine : ∀ o ∈ d.ops, Fine o
  ffeqs : ∀ h h', exec d.ops h = .ok () h' → DEqs ds L h'.val
  inp : (L 0).out = d.inp
  out : (L ds.length).out = d.out
  ps : d.ps = parsFrom L 0 ds.length
  act : ∀ k e, ds[k]? = some e → acts (k + 1) = e.2
  fresh : ∀ j ≤ ds.length, (w1.layers (d.b + j)).bp = false ∧ (w1.layers (d.b + j)).der = none ∧ (w1.layers (d.b + j)).nBias = none
  net : (w1.nets m).bp = none

theorem dense_made (hlaw : eq (add zero one) (zero : T) = false) (hlt : lt one (add zero one : T) = false) {shape : List Nat}
    {ds : List (Nat × Activation T)} {w0 : World T} (hpos : 0 < w0.store.heap.next) :
    wp True (compiled shape (ds.map dl)) (fun m w1 => ∃ d L acts, DNet shape ds m d L acts w0 w1) w0 := by
  have hfit : ∀ (ds : List (Nat × Activation T)) shape, Fits (ds.map dl) shape := by
    intro ds
    induction ds with
    | nil => intro _; trivial
    | cons e ds ih => intro shape; exact ⟨trivial, ih _⟩
  refine wp_mono (compiled_run hlaw hpos (fun s hs => ?_) (hfit ds shape)) ?_
  · obtain ⟨e, _, rfl⟩ := List.mem_map.1 hs
    exact ffGood_dense _ _
  rintro m w1 ⟨d, ws, wa, wb, M, S, R, hlo, hhi⟩
  obtain ⟨ops, L, F⟩ := ffTrace_dense R.seq R.all.trace
  have hops : ops = d.ops := by
    have := F.grow.ctx
    rw [R.all.grow.ctx] at this
    exact (List.append_cancel_left this).symm
  subst hops
  have xb : Ext wb w1 := by
    have := R.fin.ext
    exact ⟨this.next, this.nodeNext, this.kind, this.frozen⟩
  obtain ⟨x1, _, _, _, _, _, x7⟩ := R.apart
  have hlen : (ds.map dl).length = ds.length := List.length_map ..
  have R1 : DReady ds L w1 := F.ready.ext xb
  have layk : ∀ k, k < ds.length → w1.layers (d.b + 1 + k) = { wa.layers (d.b + 1 + k) with
      ff := true, input := some (L k).out, output := some (L (k + 1)).out, neta := some (L (k + 1)).neta,
      dif := some (L (k + 1)).dif, bias := some (L (k + 1)).bn, weights := some (L (k + 1)).wn } := fun k hk => by
    rw [R.layers]; exact F.layk k hk
  have lay0 : w1.layers d.b = { wa.layers d.b with ff := true, neta := some d.inp, output := some d.inp, dif := some (L 0).dif } := by
    rw [R.layers]; exact F.lay0
  have hout : (w1.layers (d.b + ds.length)).output = some (L ds.length).out := by
    rcases Nat.eq_zero_or_pos ds.length with h | h
    · rw [h, Nat.add_zero, lay0, F.ids.1]
    · have := layk (ds.length - 1) (by omega)
      rw [show d.b + 1 + (ds.length - 1) = d.b + ds.length by omega, show ds.length - 1 + 1 = ds.length by omega] at this
      rw [this]
  have houtE : (L ds.length).out = d.out := by
    have := M.out
    rw [hlen, hout] at this
    exact Option.some.inj this
  have houtM : d.outM = (L ds.length).oM := by
    rw [← M.comp.rout.mat, ← houtE, (R1.out _ (le_refl _)).mat]
  have hps : d.ps = parsFrom L 0 ds.length := by
    rw [M.comp.par, hlen]
    unfold parsFrom
    rw [List.range_eq_range']
    refine List.map_congr_left fun k hk => ?_
    have hk : k < ds.length := by have := List.mem_range'.1 hk; omega
    unfold layerParams
    rw [layk k hk]
    show [(w1.store.nodes (L (k + 1)).wn).mat, (w1.store.nodes (L (k + 1)).bn).mat] = _
    rw [(R1.wn k hk).mat, (R1.bn k hk).mat]
  have hst : Stage d.lo d.hi d.own d.ops d.inM d.outM d.ps (fun _ _ => False) (netFn (ds.map dl)) (Safe (ds.map dl) shape) := by
    have St := M.comp.stage
    refine ⟨St.dst, St.out, St.par, St.opar, fun _ _ h => h.elim, fun h h' x pv hn _ hx hp he => ?_, fun _ => F.fine⟩
    obtain ⟨n2, v2⟩ := exec_frame he
    have hx' : Holds h' d.inM x := hx.kept (le_of_eq n2.symm) fun q hq => v2 q fun hd => by
      have hq' := M.comp.inlt q hq
      rcases St.dst q hd with h | h
      · omega
      · exact (M.comp.own q h).2 hq
    have hp' := forall₂_kept (le_of_eq n2.symm) (fun p hp a ha q hq => v2 q (St.par p hp a ha q hq).2.2) hp
    rw [hps] at hp'
    have := DEqs.out F.set (h := h') (fun k hk => ((F.ready.out k hk).good).mono (by rw [n2, ← hhi]; exact hn)) (F.eqs h h' he)
      ds.length 0 (by omega) x pv (by rw [F.set.first.1]; exact hx') hp'
    rw [houtM]
    simpa using this
  have hM : Made w0 w1 m shape (ds.map dl) { d with K := fun _ _ => False } := by
    refine ⟨M.apart, M.mid, ?_, M.base, M.next, M.low, M.lo, M.own, M.nc, fun _ => M.flags, M.first, M.inp, M.outF⟩
    have C := M.comp
    exact ⟨⟨C.pos, C.rin, C.ishape, C.nodup, C.rout, C.oshape, C.chain, C.par, C.pready, C.pshape, hst, C.hi,
      C.own, C.inlt, fun _ _ h => h.elim, C.both, C.wn, C.pdist⟩, C.ff, C.input, C.output, C.last⟩
  have href : ∀ k ≤ ds.length, (w1.layers (d.b + k)).ref = (wa.layers (d.b + k)).ref := by
    intro k hk
    rcases Nat.eq_zero_or_pos k with h | h
    · subst h; rw [Nat.add_zero, lay0]
    · have := layk (k - 1) (by omega)
      rw [show d.b + 1 + (k - 1) = d.b + k by omega] at this
      rw [this]
  have hfresh : ∀ j ≤ ds.length, (ws.layers (d.b + j)).bp = false ∧ (ws.layers (d.b + j)).der = none ∧ (ws.layers (d.b + j)).nBias = none := by
    intro j hj
    rcases Nat.eq_zero_or_pos j with h | h
    · subst h
      obtain ⟨x, hx⟩ := S.lay0
      rw [Nat.add_zero, hx]; exact ⟨rfl, rfl, rfl⟩
    · have hj' : j - 1 < (ds.map dl).length := by rw [hlen]; omega
      obtain ⟨o, ho⟩ := S.layk (j - 1) _ (List.getElem?_eq_getElem hj')
      rw [show d.b + 1 + (j - 1) = d.b + j by omega] at ho
      rw [ho]; exact ⟨rfl, rfl, rfl⟩
  refine ⟨{ d with K := fun _ _ => False }, L, fun k => (w1.layers (d.b + k)).act, hM, fun _ _ h => h, ?_, ?_, F.dst, F.fine, F.eqs, F.ids.1,
    houtE, hps, fun k e he => ?_, fun j hj => ?_, ?_⟩
  · show DSet ds d.inM d.lo d.hi L
    rw [hlo, hhi]; exact F.set
  · refine ⟨R1, ⟨?_, ?_⟩, ?_, ?_, ?_, fun _ _ => rfl, fun k hk => ?_, fun k hk => ?_⟩
    · show (w1.layers d.b).kind = _
      rw [lay0]; exact R.seq.kind
    · show (w1.layers d.b).pre = _
      rw [lay0]; exact R.seq.pre
    · show (w1.layers d.b).weights = _ ∧ (w1.layers d.b).bias = _
      rw [lay0]; exact R.seq.wn
    · show (w1.layers d.b).neta = _
      rw [lay0, F.ids.2]
    · show (w1.layers d.b).dif = _
      rw [lay0]
    · have A := R.seq.lay k (dl ds[k]) (by rw [List.getElem?_map, List.getElem?_eq_getElem hk]; rfl)
      show (w1.layers (d.b + 1 + k)).kind = _ ∧ (w1.layers (d.b + 1 + k)).pre = _ ∧ _
      rw [layk k hk]
      refine ⟨A.kind, ?_, rfl, rfl, rfl, rfl, rfl, rfl⟩
      show (wa.layers (d.b + 1 + k)).pre = some (d.b + k)
      rw [A.pre]; congr 1; omega
    · show 0 < (w1.layers (d.b + k)).ref ∧ (w1.layers (d.b + k)).ref < w1.store.heap.next ∧
        eq (w1.store.heap.val (w1.layers (d.b + k)).ref) zero = false ∧ lt one (w1.store.heap.val (w1.layers (d.b + k)).ref) = false
      rw [href k hk]
      obtain ⟨r1, r2, r3⟩ := R.seq.ref k (by rw [hlen]; exact hk)
      have hxa : wa.store.heap.next ≤ wb.store.heap.next := F.grow.next
      have hxb := xb.next
      have hv : w1.store.heap.val (wa.layers (d.b + k)).ref = add zero one := by
        rw [show w1.store.heap.val (wa.layers (d.b + k)).ref = wb.store.heap.val (wa.layers (d.b + k)).ref from
          R.fin.val _ (lt_of_lt_of_le r2 hxa) (fun h => h), F.grow.val _ r2 (fun h => h)]
        exact (R.refval k (by rw [hlen]; exact hk)).2
      rw [hv]
      exact ⟨r1, by omega, hlaw, hlt⟩
  · have hk := (List.getElem?_eq_some_iff.1 he).1
    have A := R.seq.lay k (dl e) (by rw [List.getElem?_map, he]; rfl)
    show (w1.layers (d.b + (k + 1))).act = _
    rw [show d.b + (k + 1) = d.b + 1 + k by omega, layk k hk]
    exact A.act
  · show (w1.layers (d.b + j)).bp = false ∧ (w1.layers (d.b + j)).der = none ∧ (w1.layers (d.b + j)).nBias = none
    obtain ⟨bb, r, i, e⟩ := x7 (d.b + j)
    have hf := hfresh j hj
    rcases Nat.eq_zero_or_pos j with h | h
    · subst h
      rw [Nat.add_zero] at e hf ⊢
      rw [lay0, e]; exact hf
    · have hl := layk (j - 1) (by omega)
      rw [show d.b + 1 + (j - 1) = d.b + j by omega] at hl
      rw [hl, e]; exact hf
  · obtain ⟨t, tM, _, _, _, _, hn⟩ := R.net
    rw [hn, S.net]; rfl

end Godeep
