import Verif.Lemmas.LBuild
import Verif.Lemmas.JParams
/-
  `Compile` of a chain of layers with connected input layers in it, and models made of such a chain.
-/
set_option linter.unusedSectionVars false

namespace Godeep
open Spec GoNum

variable {T : Type} [GoNum T]

theorem LBase.at {shape : List Nat} {ls : List (LSpec T)} {lk : Nat → Bool} {b inp0 : Nat} {m0 : Mat} {w : World T}
    (S : LBase shape ls lk b inp0 m0 w) {k : Nat} (hk : k < ls.length) : ItemAt (lk k) ls[k] w (b + 1 + k) :=
  S.lay k _ (by simp [hk])

theorem LBase.ext {shape : List Nat} {ls : List (LSpec T)} {lk : Nat → Bool} {b inp0 : Nat} {m0 : Mat} {w w' : World T}
    (S : LBase shape ls lk b inp0 m0 w) (g : Ext w w') (hl : ∀ k ≤ ls.length, ∃ bb r i,
      w'.layers (b + k) = { w.layers (b + k) with build := bb, ref := r, index := i }) :
    LBase shape ls lk b inp0 m0 w' := by
  obtain ⟨b1, r1, i1, e⟩ := hl 0 (Nat.zero_le _)
  simp only [Nat.add_zero] at e
  have hl' : ∀ k, k < ls.length → ∃ bb r i,
      w'.layers (b + 1 + k) = { w.layers (b + 1 + k) with build := bb, ref := r, index := i } := fun k hk => by
    have := hl (k + 1) hk
    rw [show b + (k + 1) = b + 1 + k by omega] at this
    exact this
  have hown : ∀ k, k < ls.length → ∀ q, ownCell w' (b + 1 + k) q ↔ ownCell w (b + 1 + k) q := fun k hk q => by
    obtain ⟨b2, r2, i2, e2⟩ := hl' k hk
    exact (S.at hk).own_ext g e2 q
  refine ⟨lt_of_lt_of_le S.pos g.next, by rw [e]; exact S.kind, by rw [e]; exact S.pre, by rw [e]; exact S.ff,
    by rw [e]; exact S.input, S.rin.ext g, S.shape, S.nodup, by rw [e]; exact S.wn, ?_, ?_⟩
  · intro k s hs
    obtain ⟨b2, r2, i2, e2⟩ := hl' k (List.getElem?_eq_some_iff.1 hs).1
    exact (S.lay k s hs).ext g e2
  · intro k hk q hq
    obtain ⟨h1, h2⟩ := S.dis k hk q ((hown k hk q).1 hq)
    exact ⟨h1, fun k' hk' hq' => h2 k' hk' ((hown k' (by omega) q).1 hq')⟩

theorem LBase.snoc {shape : List Nat} {ls : List (LSpec T)} {lk : Nat → Bool} {s : LSpec T} {b inp0 : Nat} {m0 : Mat} {w w' : World T}
    (S : LBase shape ls lk b inp0 m0 w) (g : Ext w w') (hl : ∀ k ≤ ls.length, w'.layers (b + k) = w.layers (b + k))
    (hs : ItemAt (lk ls.length) s w' (b + 1 + ls.length))
    (hnew : ∀ q, ownCell w' (b + 1 + ls.length) q → w.store.heap.next ≤ q) :
    LBase shape (ls ++ [s]) lk b inp0 m0 w' := by
  have S' := S.ext g fun k hk => ⟨_, _, _, hl k hk⟩
  have hl' : ∀ k, k < ls.length → w'.layers (b + 1 + k) = w.layers (b + 1 + k) := fun k hk => by
    have := hl (k + 1) hk
    rw [show b + (k + 1) = b + 1 + k by omega] at this
    exact this
  have hown : ∀ k, k < ls.length → ∀ q, ownCell w' (b + 1 + k) q ↔ ownCell w (b + 1 + k) q := fun k hk q =>
    (S.at hk).own_ext g (hl' k hk) q
  refine ⟨S'.pos, S'.kind, S'.pre, S'.ff, S'.input, S'.rin, S'.shape, S'.nodup, S'.wn, ?_, ?_⟩
  · intro k s' h
    have hk := (List.getElem?_eq_some_iff.1 h).1
    rw [List.length_append, List.length_singleton] at hk
    rcases Nat.lt_or_ge k ls.length with h1 | h1
    · rw [List.getElem?_append_left h1] at h
      exact S'.lay k s' h
    · have : k = ls.length := by omega
      subst this
      simp at h
      rw [← h]; exact hs
  · intro k hk q hq
    rw [List.length_append, List.length_singleton] at hk
    rcases Nat.lt_or_ge k ls.length with h1 | h1
    · exact S'.dis k h1 q hq
    · have : k = ls.length := by omega
      subst this
      have hq' := hnew q hq
      refine ⟨fun hm => ?_, fun k' hk' hq2 => ?_⟩
      · have := (S.rin.good.valid q hm).2; omega
      · have := (S.at hk').own_lt ((hown k' hk' q).1 hq2); omega

theorem LBase.preChain {shape : List Nat} {ls : List (LSpec T)} {lk : Nat → Bool} {b inp0 : Nat} {m0 : Mat} {w : World T}
    (S : LBase shape ls lk b inp0 m0 w) : PreChain b ls.length w :=
  ⟨S.pre, fun k hk => by rw [(S.at hk).pre]; congr 1; omega⟩

/-- a model of such a chain that has not been compiled -/
structure LMade (shape : List Nat) (ls : List (LSpec T)) (lk : Nat → Bool) (m b inp0 : Nat) (m0 : Mat) (w : World T) : Prop
    extends LBase shape ls lk b inp0 m0 w where
  new : ∀ k ≤ ls.length, (w.layers (b + k)).ref = 0 ∧ (w.layers (b + k)).build = false
  next : b + ls.length + 1 = w.layerNext
  net : (w.nets m).first = some b ∧ (w.nets m).last = some (b + ls.length)
  mlt : m < w.netNext

/-- what `Compile` of such a model has done: `w1` is the world after `Build`, `w2` after `BuildFeedforward` -/
structure LRun (shape : List Nat) (ls : List (LSpec T)) (lk : Nat → Bool) (m b inp0 : Nat) (m0 : Mat) (ops : List (Op T)) (out : Nat)
    (outM : Mat) (K : Ptr → T → Prop) (w w1 w2 w' : World T) : Prop where
  seq : LAt shape ls lk b inp0 m0 w1
  refs : ∃ wb, Refs (fun l => b ≤ l ∧ l ≤ b + ls.length) w wb ∧ w1 = clr wb
  refval : ∀ k ≤ ls.length, w.store.heap.next ≤ (w1.layers (b + k)).ref
  all : LAll shape ls b m0 ops out outM K w1 w2
  fin : Grow (fun _ => False) (fun _ => False) [] (clr w2) { w' with nets := w2.nets }
  layers : w'.layers = w2.layers
  other : ∀ k, k ≠ m → w'.nets k = w.nets k
  net : ∃ t tM, Ready w' t tM ∧ tM.shape = outM.shape ∧ tM.ops.Nodup ∧ (∀ q ∈ tM.ops, w2.store.heap.next ≤ q) ∧
    w'.nets m = { w.nets m with ff := some ops, reset := some [], input := some inp0, output := some out, target := some t }

theorem l_compile_core {shape : List Nat} {ls : List (LSpec T)} {lk : Nat → Bool} {m b inp0 : Nat} {m0 : Mat} {w : World T}
    (hlaw : ∀ n ≤ links lk ls.length, eq (ones n) (zero : T) = false) (S : LMade shape ls lk m b inp0 m0 w) (hg : ∀ s, FFGood (s : LSpec T))
    (hlay : ∀ k s, ls[k]? = some s → if lk k then s = linkSpec (outShapes (ls.take k) shape) else s.fits (outShapes (ls.take k) shape)) :
    wp True (NetM.compile m) (fun _ w' => ∃ ops out outM K w1 w2,
      LRun shape ls lk m b inp0 m0 ops out outM K w w1 w2 w') w := by
  unfold NetM.compile
  refine wp_bind (wp_net ?_)
  refine wp_bind (wp_deref (a := b + ls.length) S.net.2 ?_)
  have hlast : (w.layers (b + ls.length)).ref = 0 ∧ ∀ k ≤ ls.length, (w.layers (b + k)).ref = 0 ∧
      (w.layers (b + k)).build = false := by
    have := S.new
    exact ⟨(this _ (le_refl _)).1, this⟩
  obtain ⟨wa, ea, Ra, la, na, va⟩ := addRef_new S.pos hlast.1 one
  refine wp_bind (wp_of_ok ea ?_)
  have hfuel : Run.fuel wa = .ok (wa.layerNext + 1) wa := rfl
  refine wp_bind (wp_of_ok hfuel ?_)
  have hln : b + ls.length + 1 ≤ wa.layerNext := by rw [Ra.grow.layerNext]; exact le_of_eq S.next
  have hsa : ∀ k, k < ls.length → wa.layers (b + k) = w.layers (b + k) := fun k hk => Ra.grow.layers _ (by omega)
  have hkp : ∀ l, (wa.layers l).kind = (w.layers l).kind ∧ (wa.layers l).pre = (w.layers l).pre ∧
      (wa.layers l).build = (w.layers l).build := fun l => by
    by_cases h : l = b + ls.length
    · subst h; rw [la]; exact ⟨rfl, rfl, rfl⟩
    · rw [Ra.grow.layers l h]; exact ⟨rfl, rfl, rfl⟩
  have TB : LToBuild b ls.length lk wa := by
    refine ⟨by omega, ?_, ?_, fun k kn => ?_, fun k hk => ?_, fun k hk => ?_, ?_⟩
    · rw [(hkp b).1]; exact S.kind
    · rw [(hkp b).2.1]; exact S.pre
    · have := S.toLBase.at kn
      rw [(hkp _).1, (hkp _).2.1]
      refine ⟨?_, by rw [this.pre]; congr 1; omega⟩
      cases h : lk k with
      | true => exact (this.link h).kind
      | false => exact ⟨_, (this.layer h).kind⟩
    · rw [(hkp _).2.2]; exact (hlast.2 k hk).2
    · rw [hsa k hk]; exact (hlast.2 k (by omega)).1
    · rw [la]; exact ⟨S.pos, by simp only; omega, va⟩
  refine wp_bind (wp_mono (build_items (hlaw 0 (Nat.zero_le _)) TB (by omega)) ?_)
  rintro _ wb Bb
  have Rb := Bb.refs
  have Rab : Refs (fun l => b ≤ l ∧ l ≤ b + ls.length) w wb := (Ra.weaken fun l hl => by omega).trans Rb
  refine wp_bind (wp_of_ok (r := ()) (w' := clr wb) rfl ?_)
  have SA : LAt shape ls lk b inp0 m0 (clr wb) := by
    refine ⟨S.toLBase.ext (Rab.grow.ext.trans (ext_clr wb)) fun k _ => Rab.same (b + k), fun k hk => ?_⟩
    obtain ⟨_, x1, x2, j, hj, x3⟩ := Bb.at_ k hk
    refine ⟨x1, x2, ?_⟩
    show eq (wb.store.heap.val (wb.layers (b + k)).ref) zero = false
    rw [x3]; exact hlaw j hj
  refine wp_bind (wp_mono (lff_chain SA (by omega) hg hlay) ?_)
  rintro _ w2 ⟨ops, out, outM, K, A⟩
  refine wp_bind (wp_of_ok (r := w2.store.ctx) (w' := w2) rfl ?_)
  have hctx : w2.store.ctx = ops := by rw [A.grow.ctx]; rfl
  rw [hctx]
  refine wp_bind (wp_of_ok (r := ()) (w' := clr w2) rfl ?_)
  have PC2 : PreChain b ls.length (clr w2) := by
    have := SA.toLBase.preChain
    refine ⟨?_, fun k hk => ?_⟩
    · show (w2.layers b).pre = none
      rw [(A.same b).2.1]; exact this.first
    · show (w2.layers _).pre = _
      rw [(A.same _).2.1]; exact this.pre k hk
  refine wp_bind (wp_of_ok (reset_ok PC2 (by omega)) ?_)
  refine wp_bind (wp_of_ok (r := []) (w' := clr w2) rfl ?_)
  refine wp_bind (wp_of_ok (r := ()) (w' := updN m (fun x => { x with ff := some ops, reset := some [] }) (clr w2)) rfl ?_)
  set w3 := updN m (fun x => { x with ff := some ops, reset := some [] }) (clr w2) with hw3
  refine wp_bind (wp_deref (a := b) S.net.1 ?_)
  have hin : LayerM.getInputs (wa.layerNext + 1) b w3 = .ok (some inp0) w3 := by
    show (match (w2.layers b).kind, (w2.layers b).pre with
      | .input, some p => LayerM.getOutputs _ p
      | _, _ => pure (w2.layers b).input : Run T (Option Nat)) w3 = _
    rw [(A.same b).1, (A.same b).2.1, A.input]
    rw [SA.kind, SA.pre, SA.input]
    rfl
  refine wp_bind (wp_of_ok hin ?_)
  refine wp_bind (wp_of_ok (r := ()) (w' := updN m (fun x => { x with input := some inp0 }) w3) rfl ?_)
  set w4 := updN m (fun x => { x with input := some inp0 }) w3 with hw4
  have hout : LayerM.getOutputs (wa.layerNext + 1) (b + ls.length) w4 = .ok (some out) w4 := by
    obtain ⟨rl, s1, _, _, s4, s5⟩ := A.src
    have := delegated_src (field := Layer.output) (fuel := wa.layerNext + 1) (p := b + ls.length) (r := rl) (w := w4) (by omega) (s1.congr (fun _ _ => rfl) rfl)
      fun h => (s5 h).imp fun n hn => ⟨by omega, hn.2.congr fun _ _ => rfl⟩
    rw [show w4.layers = w2.layers from rfl, s4] at this
    exact this
  refine wp_bind (wp_of_ok hout ?_)
  refine wp_bind (wp_of_ok (r := ()) (w' := updN m (fun x => { x with output := some out }) w4) rfl ?_)
  set w5 := updN m (fun x => { x with output := some out }) w4 with hw5
  refine wp_bind (wp_deref rfl ?_)
  have e25 : Ext w2 w5 := ext_of_eq (le_refl _) rfl rfl
  have q5 : 0 < w5.store.heap.next := lt_of_lt_of_le SA.pos A.grow.next
  refine wp_bind (wp_copyTensor (L := fun _ => False) (C := fun _ => False) (A.ready.ext e25) q5
    fun w6 c g6 l6 x6 r6 nd6 f6 h6 s6 _ => ?_)
  refine wp_of_ok (r := ()) (w' := updN m (fun x => { x with target := some w5.nodeNext }) w6) rfl ?_
  have hnet6 : w6.nets = w5.nets := g6.nets
  have hnw2 : w2.nets = w.nets := by rw [A.grow.nets]; exact Rab.grow.nets
  refine ⟨ops, out, outM, K, clr wb, w2, SA, ⟨wb, Rab, rfl⟩, ?_, A, ?_, ?_, ?_, ?_⟩
  · intro k hk
    show _ ≤ (wb.layers (b + k)).ref
    have := Ra.grow.next
    rcases Bb.new k hk with h | h
    · omega
    · rw [h, la]
  · refine ⟨g6.next, g6.val, g6.nodeNext, g6.kind, g6.frozen, fun l h => g6.layers l h, g6.layerNext, rfl, g6.netNext, g6.ctx⟩
  · exact l6
  · intro k hk
    rw [updN_ne _ _ hk, hnet6, hw5, updN_ne _ _ hk, hw4, updN_ne _ _ hk, hw3, updN_ne _ _ hk]
    show w2.nets k = _
    rw [hnw2]
  · refine ⟨w5.nodeNext, c, r6.ext (ext_of_eq (le_refl _) rfl rfl), s6, nd6, f6, ?_⟩
    rw [updN_same, hnet6, hw5, updN_same, hw4, updN_same, hw3, updN_same]
    rw [show (clr w2).nets m = w.nets m by rw [← hnw2]; rfl]

theorem LRun.compiled {shape : List Nat} {ls : List (LSpec T)} {lk : Nat → Bool} {m b inp0 : Nat} {m0 : Mat} {ops : List (Op T)} {out : Nat}
    {outM : Mat} {K : Ptr → T → Prop} {w w1 w2 w' : World T} (R : LRun shape ls lk m b inp0 m0 ops out outM K w w1 w2 w')
    (hlast : (w.nets m).last = some (b + ls.length)) :
    Compiled m shape ls ⟨b, inp0, m0, ops, out, outM, (List.range ls.length).map fun k => layerParams w' (b + 1 + k), K,
      w1.store.heap.next, w2.store.heap.next, fun q => ∃ k < ls.length, ownCell w1 (b + 1 + k) q⟩ w' := by
  obtain ⟨t, tM, rt, _, _, _, hnet⟩ := R.net
  have A := R.all
  have x12 : Ext w1 w2 := A.grow.ext
  have x2' : Ext w2 w' := by
    have := R.fin.ext
    exact ⟨this.next, this.nodeNext, this.kind, this.frozen⟩
  have hpar : ∀ k < ls.length, layerParams w' (b + 1 + k) = layerParams w2 (b + 1 + k) := fun k hk =>
    layerParams_ext x2' (by rw [R.layers]) (by rw [R.layers]) (A.pready k hk)
  have hps : ((List.range ls.length).map fun k => layerParams w' (b + 1 + k)) =
      (List.range ls.length).map fun k => layerParams w2 (b + 1 + k) :=
    List.map_congr_left fun k hk => hpar k (List.mem_range.1 hk)
  refine ⟨?_, by rw [hnet], by rw [hnet], by rw [hnet], by rw [hnet]; exact hlast⟩
  refine ⟨lt_of_lt_of_le R.seq.pos (x12.trans x2').next, R.seq.rin.ext (x12.trans x2'), R.seq.shape, R.seq.nodup, A.ready.ext x2', A.oshape, ?_, rfl,
    ?_, ?_, ?_, ⟨x12.next, x2'.next⟩, ?_, ?_, ?_, fun k hk => by rw [R.layers]; exact A.both k hk, by rw [R.layers]; exact A.wn, by
      simp only
      rw [hps]; exact A.pdist⟩
  · have := R.seq.toLBase.preChain
    refine ⟨?_, fun k hk => ?_⟩
    · rw [R.layers, (A.same _).2.1]; exact this.first
    · rw [R.layers, (A.same _).2.1]; exact this.pre k hk
  · intro k hk n h
    rw [R.layers] at h
    obtain ⟨a, ra, nd⟩ := A.pready k hk n h
    exact ⟨a, ra.ext x2', nd⟩
  · intro k s hs
    rw [hpar k (List.getElem?_eq_some_iff.1 hs).1]
    exact A.pshape k s hs
  · simp only
    rw [hps]; exact A.stage
  · rintro q ⟨k, hk, hq⟩
    exact ⟨(R.seq.toLBase.at hk).own_lt hq, (R.seq.dis k hk q hq).1⟩
  · exact fun q hq => (R.seq.rin.good.valid q hq).2
  · intro q c hk
    obtain ⟨_, k2, _⟩ := A.stage.keep q c hk
    have := R.fin.val q k2 (fun h => h)
    show w'.store.heap.val q = c
    rw [show w'.store.heap.val q = w2.store.heap.val q from this]
    exact A.kept q c hk

/-- `Compile` touches nothing but the model and its layers -/
theorem LRun.apart {shape : List Nat} {ls : List (LSpec T)} {lk : Nat → Bool} {m b inp0 : Nat} {m0 : Mat} {ops : List (Op T)} {out : Nat}
    {outM : Mat} {K : Ptr → T → Prop} {w w1 w2 w' : World T} (R : LRun shape ls lk m b inp0 m0 ops out outM K w w1 w2 w') :
    Ext w w1 ∧ Ext w w' ∧ (∀ q, q < w.store.heap.next → w'.store.heap.val q = w.store.heap.val q) ∧
      (∀ l, ¬ (b ≤ l ∧ l ≤ b + ls.length) → w'.layers l = w.layers l) ∧ w'.layerNext = w.layerNext ∧ w'.netNext = w.netNext ∧
      (∀ l, ∃ bb r i, w1.layers l = { w.layers l with build := bb, ref := r, index := i }) := by
  obtain ⟨wb, rb, e1⟩ := R.refs
  have A := R.all
  have x01 : Ext w w1 := by rw [e1]; exact rb.grow.ext.trans (ext_clr wb)
  have x12 : Ext w1 w2 := A.grow.ext
  have x2' : Ext w2 w' := by
    have := R.fin.ext
    exact ⟨this.next, this.nodeNext, this.kind, this.frozen⟩
  refine ⟨x01, x01.trans (x12.trans x2'), fun q hq => ?_, fun l hl => ?_, ?_, ?_, ?_⟩
  · rw [show w'.store.heap.val q = w2.store.heap.val q from
      R.fin.val q (lt_of_lt_of_le hq (x01.trans x12).next) (fun h => h)]
    rw [A.grow.val q (lt_of_lt_of_le hq x01.next) ?_]
    · rw [e1]; exact rb.grow.val q hq (fun h => h)
    · rintro ⟨k, hk, e⟩
      have := R.refval k hk
      omega
  · rw [R.layers, A.grow.layers l hl, e1]
    exact rb.grow.layers l hl
  · rw [show w'.layerNext = w2.layerNext from R.fin.layerNext, A.grow.layerNext, e1]; exact rb.grow.layerNext
  · rw [show w'.netNext = w2.netNext from R.fin.netNext, A.grow.netNext, e1]; exact rb.grow.netNext
  · rw [e1]; exact rb.same

end Godeep
