import Verif.Lemmas.SaveFrame
import Verif.Lemmas.Compile
import Verif.Props.MatBasic
/-
  `Compile` and `Predict` of sequential models.
-/
set_option linter.unusedSectionVars false

namespace Godeep
open Spec GoNum

variable {T : Type} [GoNum T]

/-- the layers `b .. b + n` are connected one after the other -/
structure PreChain (b n : Nat) (w : World T) : Prop where
  first : (w.layers b).pre = none
  pre : ∀ k, k < n → (w.layers (b + 1 + k)).pre = some (b + k)

theorem SeqBase.preChain {shape : List Nat} {ls : List (LSpec T)} {b inp0 : Nat} {m0 : Mat} {w : World T}
    (S : SeqBase shape ls b inp0 m0 w) : PreChain b ls.length w :=
  ⟨S.pre, fun k hk => by rw [(S.at hk).pre]; congr 1; omega⟩

theorem reset_ok {b n f : Nat} {w : World T} (C : PreChain b n w) (hf : n < f) :
    LayerM.reset f (b + n) w = .ok () w := by
  induction n generalizing f with
  | zero =>
    obtain ⟨f, rfl⟩ : ∃ g, f = g + 1 := ⟨f - 1, by omega⟩
    show (match (w.layers b).pre with
      | some p => LayerM.reset f p
      | none => pure () : Run T Unit) w = _
    rw [C.first]; rfl
  | succ n ih =>
    obtain ⟨f, rfl⟩ : ∃ g, f = g + 1 := ⟨f - 1, by omega⟩
    show (match (w.layers (b + (n + 1))).pre with
      | some p => LayerM.reset f p
      | none => pure () : Run T Unit) w = _
    have := C.pre n (by omega)
    rw [show b + 1 + n = b + (n + 1) by omega] at this
    rw [this]
    exact ih ⟨C.first, fun k hk => C.pre k (by omega)⟩ (by omega)

/-- `t.Copy()` -/
theorem wp_copyTensor {tot : Prop} {n : Nat} {a : Mat} {L : Nat → Prop} {C : Ptr → Prop} {w : World T}
    {Q : Nat → World T → Prop} (r : Ready w n a) (hpos : 0 < w.store.heap.next)
    (h : ∀ w' c, Grow L C [] w w' → w'.layers = w.layers → w'.nodeNext = w.nodeNext + 1 → Ready w' w.nodeNext c →
      c.ops.Nodup → (∀ q ∈ c.ops, w.store.heap.next ≤ q) →
      (∀ t, Holds w.store.heap a t → Holds w'.store.heap c t) → c.shape = a.shape →
      (∀ k, k ≠ w.nodeNext → w'.store.nodes k = w.store.nodes k) → Q w.nodeNext w') :
    wp tot (NetM.copyTensor n) Q w := by
  unfold NetM.copyTensor
  refine wp_bind (wp_mat ?_)
  rw [r.mat]
  obtain ⟨c, h', e, N⟩ := Props.C07_copy a (ofMat w.store.heap.val a) w.store.heap (good_holds r.good) hpos
  refine wp_mono (wp_eq (wp_leaf (Q := fun n w' => n = w.nodeNext ∧ Grow L C [] w w' ∧ w'.store.heap = h' ∧
    w'.layers = w.layers ∧ w'.nodeNext = w.nodeNext + 1 ∧ Ready w' w.nodeNext c) e N
    fun w' g hh hl hn _ hr => ⟨rfl, g, hh, hl, hn, hr⟩)) ?_
  rintro _ w' ⟨⟨rfl, g, hh, hl, hn, hr⟩, eq⟩
  refine h w' c g hl hn hr N.nodup N.fresh (fun t ht => ?_) ?_ (fun k hk => ?_)
  · obtain ⟨c2, h2, e2, N2⟩ := Props.C07_copy a t w.store.heap ht hpos
    rw [e] at e2
    cases e2
    rw [hh]; exact N2.holds
  · exact N.holds.shape
  · have e2 : Run.heap a.copy w = .ok c { w with store := { w.store with heap := h' } } := by
      simp only [Run.heap, e]
    have e3 : Run.leaf a.copy w = (Run.newNode ⟨.leaf, c, false⟩ : Run T Nat) { w with store := { w.store with heap := h' } } := by
      show (Run.heap a.copy w).bind _ = _
      rw [e2]; rfl
    rw [e3] at eq
    simp only [Run.newNode, Out.ok.injEq, true_and] at eq
    rw [← eq]
    show (if k = w.nodeNext then _ else w.store.nodes k) = _
    rw [if_neg hk]

/-- the world with an empty context -/
def clr (w : World T) : World T := { w with store := { w.store with ctx := [] } }

theorem ext_clr (w : World T) : Ext w (clr w) := ext_of_eq (le_refl _) rfl rfl

/-- what `Compile` of a sequential model has done: `w1` is the world after `Build`, `w2` after
`BuildFeedforward` -/
structure CompileRun (shape : List Nat) (ls : List (LSpec T)) (m b inp0 : Nat) (m0 : Mat) (ops : List (Op T)) (out : Nat)
    (outM : Mat) (K : Ptr → T → Prop) (w w1 w2 w' : World T) : Prop where
  seq : SeqAt shape ls b inp0 m0 w1
  refs : ∃ wb, Refs (fun l => b ≤ l ∧ l ≤ b + ls.length) w wb ∧ w1 = clr wb
  refval : ∀ k ≤ ls.length, w.store.heap.next ≤ (w1.layers (b + k)).ref ∧
    w1.store.heap.val (w1.layers (b + k)).ref = add zero one
  refinj : ∀ j k, j < k → k ≤ ls.length → (w1.layers (b + j)).ref ≠ (w1.layers (b + k)).ref
  built : ∀ k ≤ ls.length, (w1.layers (b + k)).build = true
  all : FFAll shape ls b m0 ops out outM K w1 w2
  fin : Grow (fun _ => False) (fun _ => False) [] (clr w2) { w' with nets := w2.nets }
  layers : w'.layers = w2.layers
  other : ∀ k, k ≠ m → w'.nets k = w.nets k
  net : ∃ t tM, Ready w' t tM ∧ tM.shape = outM.shape ∧ tM.ops.Nodup ∧ (∀ q ∈ tM.ops, w2.store.heap.next ≤ q) ∧
    w'.nets m = { w.nets m with ff := some ops, reset := some [], input := some inp0, output := some out, target := some t }

/-- a sequential model that has not been compiled -/
structure SeqMade (shape : List Nat) (ls : List (LSpec T)) (m b inp0 : Nat) (m0 : Mat) (w : World T) : Prop
    extends SeqBase shape ls b inp0 m0 w where
  new : ∀ k ≤ ls.length, (w.layers (b + k)).ref = 0 ∧ (w.layers (b + k)).build = false
  next : b + ls.length + 1 ≤ w.layerNext
  net : (w.nets m).first = some b ∧ (w.nets m).last = some (b + ls.length)

theorem SeqNew.made {shape : List Nat} {ls : List (LSpec T)} {m b inp0 : Nat} {m0 : Mat} {w : World T}
    (S : SeqNew shape ls m b inp0 m0 w) : SeqMade shape ls m b inp0 m0 w := by
  refine ⟨S.toSeqBase, fun k hk => ?_, le_of_eq S.next.symm, by rw [S.net]; exact ⟨rfl, rfl⟩⟩
  rcases Nat.eq_zero_or_pos k with h | h
  · subst h
    obtain ⟨d, hd⟩ := S.lay0
    simp only [Nat.add_zero]
    rw [hd]; exact ⟨rfl, rfl⟩
  · have hk1 : k - 1 < ls.length := by omega
    obtain ⟨o, ho⟩ := S.layk (k - 1) ls[k - 1] (by simp [hk1])
    rw [show b + 1 + (k - 1) = b + k by omega] at ho
    rw [ho]; exact ⟨rfl, rfl⟩

theorem compile_core {shape : List Nat} {ls : List (LSpec T)} {m b inp0 : Nat} {m0 : Mat} {w : World T}
    (hlaw : eq (add zero one) (zero : T) = false) (S : SeqMade shape ls m b inp0 m0 w)
    (hg : ∀ s ∈ ls, FFGood s) (hfit : Fits ls shape) :
    wp True (NetM.compile m) (fun _ w' => ∃ ops out outM K w1 w2,
      CompileRun shape ls m b inp0 m0 ops out outM K w w1 w2 w') w := by
  unfold NetM.compile
  refine wp_bind (wp_net ?_)
  refine wp_bind (wp_deref (a := b + ls.length) S.net.2 ?_)
  have hlast : (w.layers (b + ls.length)).ref = 0 ∧ ∀ k ≤ ls.length, (w.layers (b + k)).ref = 0 ∧
      (w.layers (b + k)).build = false := by
    have := S.new
    exact ⟨(this _ (le_refl _)).1, this⟩
  obtain ⟨wa, ea, Ra, la, na, va⟩ := addRef_new S.pos hlast.1 one
  refine wp_bind (wp_of_ok ea ?_)
  have hfuel : Run.fuel wa = .ok (wa.layerNext + 1) wa := rfl
  refine wp_bind (wp_of_ok hfuel ?_)
  have hln : b + ls.length + 1 ≤ wa.layerNext := by rw [Ra.grow.layerNext]; exact S.next
  have hsa : ∀ k, k < ls.length → wa.layers (b + k) = w.layers (b + k) := fun k hk => Ra.grow.layers _ (by omega)
  have hkp : ∀ l, (wa.layers l).kind = (w.layers l).kind ∧ (wa.layers l).pre = (w.layers l).pre ∧
      (wa.layers l).build = (w.layers l).build := fun l => by
    by_cases h : l = b + ls.length
    · subst h; rw [la]; exact ⟨rfl, rfl, rfl⟩
    · rw [Ra.grow.layers l h]; exact ⟨rfl, rfl, rfl⟩
  have TB : ToBuild b ls.length wa := by
    refine ⟨by omega, ?_, ?_, fun k k0 kn => ?_, fun k hk => ?_, fun k hk => ?_, ?_⟩
    · rw [(hkp b).1]; exact S.kind
    · rw [(hkp b).2.1]; exact S.pre
    · have hk1 : k - 1 < ls.length := by omega
      have := S.toSeqBase.at hk1
      rw [show b + 1 + (k - 1) = b + k by omega] at this
      rw [(hkp _).1, (hkp _).2.1]
      exact ⟨⟨_, this.kind⟩, this.pre⟩
    · rw [(hkp _).2.2]; exact (hlast.2 k hk).2
    · rw [hsa k hk]; exact (hlast.2 k (by omega)).1
    · rw [la]; exact ⟨S.pos, by simp only; omega, va⟩
  refine wp_bind (wp_mono (build_chain hlaw TB (by omega)) ?_)
  rintro _ wb ⟨Rb, Pb, Eb, Fb, Ib⟩
  have Rab : Refs (fun l => b ≤ l ∧ l ≤ b + ls.length) w wb := (Ra.weaken fun l hl => by omega).trans Rb
  refine wp_bind (wp_of_ok (r := ()) (w' := clr wb) rfl ?_)
  have SA : SeqAt shape ls b inp0 m0 (clr wb) := by
    refine ⟨S.toSeqBase.ext (Rab.grow.ext.trans (ext_clr wb)) fun k _ => Rab.same (b + k), fun k hk => ?_⟩
    obtain ⟨_, x1, x2, x3⟩ := Pb k hk
    refine ⟨x1, x2, ?_⟩
    show eq (wb.store.heap.val (wb.layers (b + k)).ref) zero = false
    rw [x3]; exact hlaw
  refine wp_bind (wp_mono (ff_chain SA (by omega) hg hfit) ?_)
  rintro _ w2 ⟨ops, out, outM, K, A⟩
  refine wp_bind (wp_of_ok (r := w2.store.ctx) (w' := w2) rfl ?_)
  have hctx : w2.store.ctx = ops := by rw [A.grow.ctx]; rfl
  rw [hctx]
  refine wp_bind (wp_of_ok (r := ()) (w' := clr w2) rfl ?_)
  have PC2 : PreChain b ls.length (clr w2) := by
    have := SA.toSeqBase.preChain
    refine ⟨?_, fun k hk => ?_⟩
    · show (w2.layers b).pre = none
      rw [(A.same b).2.1]; exact this.first
    · show (w2.layers _).pre = _
      rw [(A.same _).2.1]; exact this.pre k hk
  refine wp_bind (wp_of_ok (reset_ok PC2 (by omega)) ?_)
  refine wp_bind (wp_of_ok (r := []) (w' := clr w2) rfl ?_)
  refine wp_bind (wp_of_ok (r := ()) (w' := updN m (fun x => { x with ff := some ops, reset := some [] }) (clr w2)) rfl ?_)
  set w3 := updN m (fun x => { x with ff := some ops, reset := some [] }) (clr w2) with hw3
  refine wp_bind (wp_deref (a := b) S.net.1 ?_)
  have hin : LayerM.getInputs (wa.layerNext + 1) b w3 = .ok (some inp0) w3 := by
    show (match (w2.layers b).kind, (w2.layers b).pre with
      | .input, some p => LayerM.getOutputs _ p
      | _, _ => pure (w2.layers b).input : Run T (Option Nat)) w3 = _
    rw [(A.same b).1, (A.same b).2.1, A.input]
    rw [SA.kind, SA.pre, SA.input]
    rfl
  refine wp_bind (wp_of_ok hin ?_)
  refine wp_bind (wp_of_ok (r := ()) (w' := updN m (fun x => { x with input := some inp0 }) w3) rfl ?_)
  set w4 := updN m (fun x => { x with input := some inp0 }) w3 with hw4
  have hout : LayerM.getOutputs (wa.layerNext + 1) (b + ls.length) w4 = .ok (some out) w4 := by
    have := delegated_ok (field := Layer.output) (fuel := wa.layerNext + 1) (p := b + ls.length) (w := w4) (by omega) ?_
    · rw [show w4.layers = w2.layers from rfl, A.output] at this
      exact this
    · show (w2.layers _).pre = none ∨ ∃ s : LSpec T, (w2.layers _).kind = s.kind
      rw [(A.same _).1, (A.same _).2.1]
      rcases Nat.eq_zero_or_pos ls.length with h | h
      · left; rw [h]; exact SA.pre
      · right
        have := SA.toSeqBase.at (k := ls.length - 1) (by omega)
        rw [show b + 1 + (ls.length - 1) = b + ls.length by omega] at this
        exact ⟨_, this.kind⟩
  refine wp_bind (wp_of_ok hout ?_)
  refine wp_bind (wp_of_ok (r := ()) (w' := updN m (fun x => { x with output := some out }) w4) rfl ?_)
  set w5 := updN m (fun x => { x with output := some out }) w4 with hw5
  refine wp_bind (wp_deref rfl ?_)
  have e25 : Ext w2 w5 := ext_of_eq (le_refl _) rfl rfl
  have q5 : 0 < w5.store.heap.next := lt_of_lt_of_le SA.pos A.grow.next
  refine wp_bind (wp_copyTensor (L := fun _ => False) (C := fun _ => False) (A.ready.ext e25) q5
    fun w6 c g6 l6 x6 r6 nd6 f6 h6 s6 _ => ?_)
  refine wp_of_ok (r := ()) (w' := updN m (fun x => { x with target := some w5.nodeNext }) w6) rfl ?_
  have hnet6 : w6.nets = w5.nets := g6.nets
  have hnw2 : w2.nets = w.nets := by rw [A.grow.nets]; exact Rab.grow.nets
  refine ⟨ops, out, outM, K, clr wb, w2, SA, ⟨wb, Rab, rfl⟩, ?_, Ib, ?_, A, ?_, ?_, ?_, ?_⟩
  · intro k hk
    refine ⟨?_, (Pb k hk).2.2.2⟩
    show _ ≤ (wb.layers (b + k)).ref
    rcases Nat.lt_or_ge k ls.length with h | h
    · exact le_trans Ra.grow.next (Fb k h)
    · have : k = ls.length := by omega
      subst this
      rw [Eb, la]
  · exact fun k hk => (Pb k hk).1
  · refine ⟨g6.next, g6.val, g6.nodeNext, g6.kind, g6.frozen, fun l h => g6.layers l h, g6.layerNext, rfl, g6.netNext, g6.ctx⟩
  · exact l6
  · intro k hk
    rw [updN_ne _ _ hk, hnet6, hw5, updN_ne _ _ hk, hw4, updN_ne _ _ hk, hw3, updN_ne _ _ hk]
    show w2.nets k = _
    rw [hnw2]
  · refine ⟨w5.nodeNext, c, r6.ext (ext_of_eq (le_refl _) rfl rfl), s6, nd6, f6, ?_⟩
    rw [updN_same, hnet6, hw5, updN_same, hw4, updN_same, hw3, updN_same]
    rw [show (clr w2).nets m = w.nets m by rw [← hnw2]; rfl]

/-- the parts of a compiled model -/
structure CData (T : Type) where
  b : Nat
  inp : Nat
  inM : Mat
  ops : List (Op T)
  out : Nat
  outM : Mat
  ps : List (List Mat)
  K : Ptr → T → Prop
  lo : Nat
  hi : Nat
  own : Ptr → Prop

/-- the layers `d.b .. d.b + ls.length` have their feed-forward graph `d.ops` -/
structure Chained (shape : List Nat) (ls : List (LSpec T)) (d : CData T) (w : World T) : Prop where
  pos : 0 < w.store.heap.next
  rin : Ready w d.inp d.inM
  ishape : d.inM.shape = shape
  nodup : d.inM.ops.Nodup
  rout : Ready w d.out d.outM
  oshape : d.outM.shape = outShapes ls shape
  chain : PreChain d.b ls.length w
  par : d.ps = (List.range ls.length).map fun k => layerParams w (d.b + 1 + k)
  pready : ∀ k < ls.length, ∀ n, ((w.layers (d.b + 1 + k)).weights = some n ∨ (w.layers (d.b + 1 + k)).bias = some n) →
    ∃ m, Ready w n m ∧ m.ops.Nodup
  pshape : ∀ k s, ls[k]? = some s → (layerParams w (d.b + 1 + k)).map Mat.shape =
    s.paramShapes (outShapes (ls.take k) shape)
  stage : Stage d.lo d.hi d.own d.ops d.inM d.outM d.ps d.K (netFn ls) (Safe ls shape)
  hi : d.lo ≤ d.hi ∧ d.hi ≤ w.store.heap.next
  own : ∀ q, d.own q → q < d.lo ∧ q ∉ d.inM.ops
  inlt : ∀ q ∈ d.inM.ops, q < d.lo
  kept : ∀ q c, d.K q c → w.store.heap.val q = c
  both : ∀ k ≤ ls.length, ((w.layers (d.b + k)).weights = none ↔ (w.layers (d.b + k)).bias = none)
  wn : (w.layers d.b).weights = none ∧ (w.layers d.b).bias = none
  pdist : (d.ps.flatten.flatMap Mat.ops).Nodup

/-- model `m` is compiled -/
structure Compiled (m : Nat) (shape : List Nat) (ls : List (LSpec T)) (d : CData T) (w : World T) : Prop
    extends Chained shape ls d w where
  ff : (w.nets m).ff = some d.ops
  input : (w.nets m).input = some d.inp
  output : (w.nets m).output = some d.out
  last : (w.nets m).last = some (d.b + ls.length)

theorem _root_.Godeep.Spec.ParamsOf.congr {w w' : World T} {l : Nat} {ps : List (List Mat)} (h : ParamsOf w l ps)
    (hp : ∀ l, (w'.layers l).pre = (w.layers l).pre) (hl : ∀ l, layerParams w' l = layerParams w l) : ParamsOf w' l ps := by
  induction h with
  | input h => exact .input (by rw [hp]; exact h)
  | layer h _ ih =>
    have := ParamsOf.layer (by rw [hp]; exact h) ih
    rw [hl] at this
    exact this

theorem _root_.Godeep.Spec.ParamsOf.unique {w : World T} {l : Nat} {ps ps' : List (List Mat)} (h : ParamsOf w l ps)
    (h' : ParamsOf w l ps') : ps = ps' := by
  induction h generalizing ps' with
  | input h =>
    cases h' with
    | input _ => rfl
    | layer h2 _ => rw [h] at h2; cases h2
  | layer h _ ih =>
    cases h' with
    | input h2 => rw [h] at h2; cases h2
    | layer h2 h3 =>
      rw [h] at h2; cases h2
      rw [ih h3]

/-- the parameters, by layer number -/
theorem paramsOf_chain {b n : Nat} {w : World T} (C : PreChain b n w) :
    ParamsOf w (b + n) ((List.range n).map fun k => layerParams w (b + 1 + k)) := by
  induction n with
  | zero => exact .input C.first
  | succ n ih =>
    rw [List.range_succ, List.map_append]
    have := C.pre n (by omega)
    rw [show b + 1 + n = b + (n + 1) by omega] at this
    have h := ParamsOf.layer this (ih ⟨C.first, fun k hk => C.pre k (by omega)⟩)
    simpa [show b + (n + 1) = b + 1 + n by omega] using h

/-- `Predict` of a compiled model -/
structure Predicted (m : Nat) (shape : List Nat) (ls : List (LSpec T)) (d : CData T) (x : STensor T) (r : Nat)
    (w w' : World T) : Prop where
  comp : Compiled m shape ls d w'
  ext : Ext w w'
  layers : w'.layers = w.layers
  nets : w'.nets = w.nets
  counts : w'.layerNext = w.layerNext ∧ w'.netNext = w.netNext
  nodes : (∀ k, k ≠ w.nodeNext → w'.store.nodes k = w.store.nodes k) ∧ w'.nodeNext = w.nodeNext + 1
  fresh : r = w.nodeNext ∧ ∃ rM, Ready w' r rM ∧ rM.ops.Nodup ∧ (∀ q ∈ rM.ops, w.store.heap.next ≤ q) ∧
    rM.shape = d.outM.shape ∧
    ∀ pv, List.Forall₂ (List.Forall₂ (Holds w.store.heap)) d.ps pv → Holds w'.store.heap rM (netFn ls pv x)
  val : ∀ q, q < w.store.heap.next → q ∉ d.inM.ops → q ∉ dsts d.ops → w'.store.heap.val q = w.store.heap.val q
  inv : Holds w'.store.heap d.inM x
  outv : ∀ pv, List.Forall₂ (List.Forall₂ (Holds w.store.heap)) d.ps pv → Holds w'.store.heap d.outM (netFn ls pv x)

/-- `p.LoadFromTensor(t)` -/
theorem loadFrom_ok {p t : Nat} {a : Mat} {w : World T} {x : STensor T} (ra : Ready w p a)
    (hnd : a.ops.Nodup) (hx : Holds w.store.heap (w.store.nodes t).mat x) (hs : x.shape = a.shape)
    (hal : ∀ q ∈ (w.store.nodes t).mat.ops, q ∉ a.ops) :
    ∃ h', LayerM.loadFrom p t w = .ok () { w with store := { w.store with heap := h' } } ∧
      Holds h' a x ∧ h'.next = w.store.heap.next ∧ ∀ q, q ∉ a.ops → h'.val q = w.store.heap.val q := by
  obtain ⟨h', e1, e2, _, e4, e5⟩ := Props.C08_loadFromTensor a (w.store.nodes t).mat _ x w.store.heap
    (good_holds ra.good) hx hnd (by rw [hs]; rfl) (fun i j q h1 h2 =>
      absurd (List.mem_of_getElem? h1) (hal q (List.mem_of_getElem? h2)))
  refine ⟨h', ?_, e2, e4, e5⟩
  show Run.heap ((w.store.nodes p).mat.loadFromTensor (w.store.nodes t).mat) w = _
  rw [ra.mat]
  simp only [Run.heap, e1]

theorem forall₂_kept {h h' : Heap T} {ps : List (List Mat)} {pv : List (List (STensor T))} (hn : h.next ≤ h'.next)
    (hv : ∀ p ∈ ps, ∀ m ∈ p, ∀ q ∈ m.ops, h'.val q = h.val q)
    (H : List.Forall₂ (List.Forall₂ (Holds h)) ps pv) : List.Forall₂ (List.Forall₂ (Holds h')) ps pv := by
  rw [List.forall₂_iff_get] at H ⊢
  refine ⟨H.1, fun i h1 h2 => ?_⟩
  have := H.2 i h1 h2
  rw [List.forall₂_iff_get] at this ⊢
  refine ⟨this.1, fun j j1 j2 => ?_⟩
  exact (this.2 j j1 j2).kept hn fun q hq => hv _ (List.get_mem ps ⟨i, h1⟩) _ (List.get_mem _ ⟨j, j1⟩) q hq

theorem layerParams_ext {w w' : World T} {l : Nat} (e : Ext w w') (h1 : (w'.layers l).weights = (w.layers l).weights)
    (h2 : (w'.layers l).bias = (w.layers l).bias)
    (hr : ∀ n, ((w.layers l).weights = some n ∨ (w.layers l).bias = some n) → ∃ m, Ready w n m ∧ m.ops.Nodup) :
    layerParams w' l = layerParams w l := by
  unfold layerParams
  rw [h1, h2]
  split
  · next a b ha hb =>
    obtain ⟨ma, ra, _⟩ := hr a (Or.inl ha)
    obtain ⟨mb, rb, _⟩ := hr b (Or.inr hb)
    rw [(ra.ext e).mat, (rb.ext e).mat, ra.mat, rb.mat]
  · rfl

/-- ... and keep it -/
theorem Chained.later {shape : List Nat} {ls : List (LSpec T)} {d : CData T} {w : World T}
    (C : Chained shape ls d w) {w' : World T} (e : Ext w w')
    (hl : ∀ k ≤ ls.length, (w'.layers (d.b + k)).pre = (w.layers (d.b + k)).pre ∧
      (w'.layers (d.b + k)).weights = (w.layers (d.b + k)).weights ∧
      (w'.layers (d.b + k)).bias = (w.layers (d.b + k)).bias)
    (hk : ∀ q c, d.K q c → w'.store.heap.val q = c) : Chained shape ls d w' := by
  have hl' : ∀ k < ls.length, (w'.layers (d.b + 1 + k)).pre = (w.layers (d.b + 1 + k)).pre ∧
      (w'.layers (d.b + 1 + k)).weights = (w.layers (d.b + 1 + k)).weights ∧
      (w'.layers (d.b + 1 + k)).bias = (w.layers (d.b + 1 + k)).bias := fun k hk => by
    have := hl (k + 1) hk
    rw [show d.b + (k + 1) = d.b + 1 + k by omega] at this
    exact this
  have hp : ∀ k < ls.length, layerParams w' (d.b + 1 + k) = layerParams w (d.b + 1 + k) := fun k hk =>
    layerParams_ext e (hl' k hk).2.1 (hl' k hk).2.2 (C.pready k hk)
  refine ⟨lt_of_lt_of_le C.pos e.next, C.rin.ext e, C.ishape, C.nodup, C.rout.ext e, C.oshape,
    ⟨?_, fun k hk => ?_⟩, ?_, fun k hk n h => ?_, fun k s hs => ?_, C.stage, ⟨C.hi.1, le_trans C.hi.2 e.next⟩, C.own, C.inlt, hk,
    fun k hk => by rw [(hl k hk).2.1, (hl k hk).2.2]; exact C.both k hk, by
      have := hl 0 (Nat.zero_le _)
      rw [Nat.add_zero] at this
      rw [this.2.1, this.2.2]; exact C.wn, C.pdist⟩
  · exact (hl 0 (Nat.zero_le _)).1.trans C.chain.first
  · rw [(hl' k hk).1]; exact C.chain.pre k hk
  · rw [C.par]; exact List.map_congr_left fun k hk => (hp k (List.mem_range.1 hk)).symm
  · rw [(hl' k hk).2.1, (hl' k hk).2.2] at h
    obtain ⟨a, ra, nd⟩ := C.pready k hk n h
    exact ⟨a, ra.ext e, nd⟩
  · rw [hp k (List.getElem?_eq_some_iff.1 hs).1]; exact C.pshape k s hs

/-- a compiled model stays compiled -/
theorem Compiled.later {m : Nat} {shape : List Nat} {ls : List (LSpec T)} {d : CData T} {w : World T}
    (C : Compiled m shape ls d w) {w' : World T} (e : Ext w w')
    (hl : ∀ k ≤ ls.length, (w'.layers (d.b + k)).pre = (w.layers (d.b + k)).pre ∧
      (w'.layers (d.b + k)).weights = (w.layers (d.b + k)).weights ∧
      (w'.layers (d.b + k)).bias = (w.layers (d.b + k)).bias)
    (hn : (w'.nets m).ff = (w.nets m).ff ∧ (w'.nets m).input = (w.nets m).input ∧
      (w'.nets m).output = (w.nets m).output ∧ (w'.nets m).last = (w.nets m).last)
    (hk : ∀ q c, d.K q c → w'.store.heap.val q = c) : Compiled m shape ls d w' :=
  ⟨C.toChained.later e hl hk, by rw [hn.1]; exact C.ff, by rw [hn.2.1]; exact C.input,
    by rw [hn.2.2.1]; exact C.output, by rw [hn.2.2.2]; exact C.last⟩

theorem wp_run {tot : Prop} {g : Option (List (Op T))} {ops : List (Op T)} {w : World T} {Q : Unit → World T → Prop}
    (hg : g = some ops) (hf : tot → ∃ h', exec ops w.store.heap = .ok () h')
    (h : ∀ h', exec ops w.store.heap = .ok () h' → Q () { w with store := { w.store with heap := h' } }) :
    wp tot (NetM.run g) Q w := by
  unfold NetM.run
  refine wp_bind (wp_deref hg ?_)
  unfold wp
  simp only [Run.heap]
  cases e : exec ops w.store.heap with
  | ok a h' => exact h h' e
  | err er h' => exact fun ht => by obtain ⟨_, h2⟩ := hf ht; rw [e] at h2; cases h2
  | panic => exact fun ht => by obtain ⟨_, h2⟩ := hf ht; rw [e] at h2; cases h2

theorem predict_compiled {m : Nat} {shape : List Nat} {ls : List (LSpec T)} {d : CData T} {w : World T}
    (C : Compiled m shape ls d w) {t : Nat} {x : STensor T} (hx : Holds w.store.heap (w.store.nodes t).mat x)
    (hs : x.shape = shape) (hal : ∀ q ∈ (w.store.nodes t).mat.ops, q ∉ d.inM.ops) :
    wp (Safe ls shape) (NetM.predict m t) (fun r w' => Predicted m shape ls d x r w w') w := by
  unfold NetM.predict
  refine wp_bind (wp_net ?_)
  rw [C.ff]
  refine wp_bind (wp_net ?_)
  refine wp_bind (wp_deref C.input ?_)
  obtain ⟨h1, e1, H1, n1, v1⟩ := loadFrom_ok C.rin C.nodup hx (by rw [hs, C.ishape]) hal
  refine wp_bind (wp_of_ok e1 ?_)
  set w1 : World T := { w with store := { w.store with heap := h1 } } with hw1
  refine wp_bind (wp_run C.ff (fun hsafe => exec_fine _ _ (C.stage.fine hsafe)) fun h2 e2 => ?_)
  have e2' : exec d.ops h1 = .ok () h2 := e2
  obtain ⟨n2, v2⟩ := exec_frame e2'
  set w2 : World T := { w1 with store := { w1.store with heap := h2 } } with hw2
  have x02 : Ext w w2 := ext_of_eq (by show w.store.heap.next ≤ h2.next; omega) rfl rfl
  refine wp_bind (wp_deref C.output ?_)
  refine wp_copyTensor (L := fun _ => False) (C := fun _ => False) (C.rout.ext x02)
    (lt_of_lt_of_le C.pos x02.next) fun w3 c g3 l3 x3 r3 nd3 f3 h3 s3 o3 => ?_
  have x03 : Ext w w3 := x02.trans g3.ext
  have hnin : ∀ q, d.lo ≤ q → q ∉ d.inM.ops := fun q hq hm => by have := C.inlt q hm; omega
  have hval : ∀ q, q < w.store.heap.next → q ∉ d.inM.ops → q ∉ dsts d.ops → w3.store.heap.val q = w.store.heap.val q := by
    intro q hq hq1 hq2
    rw [g3.val q (by show q < h2.next; omega) (fun h => h)]
    show h2.val q = _
    rw [v2 q hq2, v1 q hq1]
  have hrun : ∀ pv, List.Forall₂ (List.Forall₂ (Holds w.store.heap)) d.ps pv → Holds h2 d.outM (netFn ls pv x) := by
    intro pv hpv
    refine C.stage.run h1 h2 x pv (by rw [n1]; exact C.hi.2) ?_ H1 ?_ e2'
    · intro q k hk
      rw [v1 q (hnin q (C.stage.keep q k hk).1)]
      exact C.kept q k hk
    · exact forall₂_kept (by omega) (fun p hp a ha q hq => v1 q (hnin q (C.stage.par p hp a ha q hq).1)) hpv
  refine ⟨C.later x03 (fun k _ => ?_) ?_ ?_, x03, ?_, ?_, ⟨g3.layerNext, g3.netNext⟩, ⟨o3, x3⟩, ⟨rfl, c, r3, nd3, ?_, s3, ?_⟩, hval,
    ?_, ?_⟩
  · rw [l3]; exact ⟨rfl, rfl, rfl⟩
  · rw [g3.nets]; exact ⟨rfl, rfl, rfl, rfl⟩
  · intro q k hk
    obtain ⟨k1, k2, k3, _⟩ := C.stage.keep q k hk
    rw [hval q (lt_of_lt_of_le k2 C.hi.2) (hnin q k1) k3]
    exact C.kept q k hk
  · rw [l3]
  · rw [g3.nets]
  · intro q hq
    exact le_trans x02.next (f3 q hq)
  · exact fun pv hpv => h3 _ (hrun pv hpv)
  · refine H1.kept (le_trans (le_of_eq n2.symm) g3.next) fun q hq => ?_
    rw [g3.val q (by show q < h2.next; have := C.inlt q hq; have := C.hi; omega) (fun h => h)]
    refine v2 q fun hd => ?_
    rcases C.stage.dst q hd with h | h
    · have := C.inlt q hq; omega
    · exact (C.own q h).2 hq
  · intro pv hpv
    exact (hrun pv hpv).kept g3.next fun q hq => g3.val q ((C.rout.ext x02).good.valid q hq).2 (fun h => h)

theorem noerr_bind {α β : Type} {r : Res α} {f : α → Res β} (h : ∀ e, r ≠ .err e) (hf : ∀ a e, f a ≠ .err e) (e : Err) : r.bind f ≠ .err e := by
  cases r with
  | ok a => exact hf a e
  | err e' => exact absurd rfl (h e')
  | panic => simp [Res.bind]

theorem noerr_map {α β : Type} {r : Res α} {f : α → β} (h : ∀ e, r ≠ .err e) (e : Err) : r.map f ≠ .err e := by
  cases r with
  | ok a => simp [Res.map]
  | err e' => exact absurd rfl (h e')
  | panic => simp [Res.map]

theorem noerr_load (h : Heap T) (p : Ptr) (e : Err) : h.load p ≠ .err e := by
  unfold Heap.load; split_ifs <;> simp

theorem noerr_loadAll (h : Heap T) (ps : List Ptr) (e : Err) : h.loadAll ps ≠ .err e := by
  unfold Heap.loadAll
  induction ps generalizing e with
  | nil => simp [Res.mapM]
  | cons p ps ih =>
    exact noerr_bind (noerr_load h p) (fun _ => noerr_map ih) e

theorem noerr_divR (x y : T) (e : Err) : GoNum.divR x y ≠ .err e := by
  unfold GoNum.divR; split_ifs <;> simp

/-- operations do not return errors -/
theorem noerr_eval (h : Heap T) (r : Rhs T) (e : Err) : r.eval h ≠ .err e := by
  cases r with
  | add a b => exact noerr_bind (noerr_load h a) (fun _ => noerr_map (noerr_load h b)) e
  | sub a b => exact noerr_bind (noerr_load h a) (fun _ => noerr_map (noerr_load h b)) e
  | mul a b => exact noerr_bind (noerr_load h a) (fun _ => noerr_map (noerr_load h b)) e
  | div a b => exact noerr_bind (noerr_load h a) (fun _ => noerr_bind (noerr_load h b) fun _ => noerr_divR _ _) e
  | neg o => exact noerr_map (noerr_load h o) e
  | abs o => exact noerr_map (noerr_load h o) e
  | set o => exact noerr_load h o e
  | func f o => exact noerr_map (noerr_load h o) e
  | equals a b => exact noerr_bind (noerr_load h a) (fun _ => noerr_map (noerr_load h b)) e
  | sum args => exact noerr_bind (noerr_loadAll h args) (fun l e => by cases l <;> simp) e
  | avg args => exact noerr_bind (noerr_loadAll h args) (fun l e => by cases l <;> simp [noerr_divR]) e
  | max args => exact noerr_bind (noerr_loadAll h args) (fun l e => by cases l <;> simp) e
  | min args => exact noerr_bind (noerr_loadAll h args) (fun l e => by cases l <;> simp) e

theorem exec_noerr (ops : List (Op T)) (h : Heap T) {e : Err} {h' : Heap T} : exec ops h ≠ .err e h' := by
  induction ops generalizing h with
  | nil => simp [exec]
  | cons o os ih =>
    unfold exec
    have hc : ∀ e1 h1, o.cal h ≠ .err e1 h1 := by
      intro e1 h1
      cases o with
      | nop p => simp [Op.cal]
      | asg p r =>
        unfold Op.cal
        simp only
        cases hr : r.eval h with
        | ok v => simp only [Heap.store]; split_ifs <;> simp
        | err e => exact absurd hr (noerr_eval h r e)
        | panic => simp
    cases hc' : o.cal h with
    | ok u h1 => exact ih h1
    | panic => simp [Out.bind]
    | err e1 h1 => exact absurd hc' (hc e1 h1)

/-- inputs of the right shape are not rejected -/
theorem predict_noerr {m : Nat} {shape : List Nat} {ls : List (LSpec T)} {d : CData T} {w : World T}
    (C : Compiled m shape ls d w) {t : Nat} {x : STensor T} (hx : Holds w.store.heap (w.store.nodes t).mat x)
    (hs : x.shape = shape) (hal : ∀ q ∈ (w.store.nodes t).mat.ops, q ∉ d.inM.ops) (e : Err) (w' : World T) :
    NetM.predict m t w ≠ .err e w' := by
  obtain ⟨h1, e1, H1, n1, v1⟩ := loadFrom_ok C.rin C.nodup hx (by rw [hs, C.ishape]) hal
  intro he
  obtain ⟨w1, hw1⟩ : ∃ x : World T, x = { w with store := { w.store with heap := h1 } } := ⟨_, rfl⟩
  rw [← hw1] at e1
  have hh : w1.store.heap = h1 := by rw [hw1]
  have x1 : Ext w w1 := by rw [hw1]; exact ext_of_eq (le_of_eq n1.symm) rfl rfl
  have e2 : NetM.predict m t w = (NetM.run (some d.ops) w1).bind fun _ => (do
      let o ← Run.deref (w.nets m).output
      NetM.copyTensor o : Run T Nat) := by
    show (match (w.nets m).ff with
      | none => _
      | some _ => _ : Run T Nat) w = _
    rw [C.ff]
    show (Run.deref (w.nets m).input w).bind _ = _
    rw [C.input]
    show (LayerM.loadFrom d.inp t w).bind _ = _
    rw [e1]
    show (NetM.run (w.nets m).ff w1).bind _ = _
    rw [C.ff]
  have e3 : NetM.run (some d.ops) w1 = match exec d.ops h1 with
      | .ok a h => .ok a { w1 with store := { w1.store with heap := h } }
      | .err e h => .err e { w1 with store := { w1.store with heap := h } }
      | .panic => .panic := by
    rw [← hh]
    show Run.heap (exec d.ops) w1 = _
    unfold Run.heap
    cases exec d.ops w1.store.heap <;> rfl
  rw [e2, e3] at he
  cases hx : exec d.ops h1 with
  | err e' h' => exact exec_noerr _ _ hx
  | panic => rw [hx] at he; cases he
  | ok u h2 =>
    rw [hx] at he
    obtain ⟨w2, hw2⟩ : ∃ x : World T, x = { w1 with store := { w1.store with heap := h2 } } := ⟨_, rfl⟩
    have he' : (Run.deref (w.nets m).output w2).bind (fun o => NetM.copyTensor o) = .err e w' := by rw [hw2]; exact he
    rw [C.output] at he'
    have x2 : Ext w w2 := x1.trans (by rw [hw2]; exact ext_of_eq (by rw [(exec_frame hx).1, hh]) rfl rfl)
    obtain ⟨r, w3, e4, _⟩ := wp_total (wp_copyTensor (tot := True) (L := fun _ => False) (C := fun _ => False) (w := w2) (Q := fun _ _ => True)
      (C.rout.ext x2) (lt_of_lt_of_le C.pos x2.next) fun _ _ _ _ _ _ _ _ _ _ _ => trivial)
    have he'' : NetM.copyTensor d.out w2 = .err e w' := he'
    rw [e4] at he''
    cases he''

/-- inputs of another shape are rejected and nothing changes -/
theorem predict_shape {m : Nat} {shape : List Nat} {ls : List (LSpec T)} {d : CData T} {w : World T}
    (C : Compiled m shape ls d w) {t : Nat} (hs : (w.store.nodes t).mat.shape ≠ shape) :
    ∃ e, NetM.predict m t w = .err e w := by
  obtain ⟨e, he⟩ := Props.C08_loadFromTensor_error (T := T) d.inM (w.store.nodes t).mat w.store.heap (by
    rw [C.ishape]; exact fun h => hs h.symm)
  refine ⟨e, ?_⟩
  show (match (w.nets m).ff with
    | none => _
    | some _ => _ : Run T Nat) w = _
  rw [C.ff]
  show (Run.deref (w.nets m).input w).bind _ = _
  rw [C.input]
  show (Run.heap ((w.store.nodes d.inp).mat.loadFromTensor (w.store.nodes t).mat) w).bind _ = _
  rw [C.rin.mat]
  simp only [Run.heap, he]
  rfl

/-- a model is compiled after `Compile` -/
theorem CompileRun.compiled {shape : List Nat} {ls : List (LSpec T)} {m b inp0 : Nat} {m0 : Mat} {ops : List (Op T)} {out : Nat}
    {outM : Mat} {K : Ptr → T → Prop} {w w1 w2 w' : World T} (R : CompileRun shape ls m b inp0 m0 ops out outM K w w1 w2 w')
    (hlast : (w.nets m).last = some (b + ls.length)) :
    Compiled m shape ls ⟨b, inp0, m0, ops, out, outM, (List.range ls.length).map fun k => layerParams w' (b + 1 + k), K,
      w1.store.heap.next, w2.store.heap.next, fun q => ∃ k < ls.length, ownCell w1 (b + 1 + k) q⟩ w' := by
  obtain ⟨t, tM, rt, _, _, _, hnet⟩ := R.net
  have A := R.all
  have x12 : Ext w1 w2 := A.grow.ext
  have x2' : Ext w2 w' := by
    have := R.fin.ext
    exact ⟨this.next, this.nodeNext, this.kind, this.frozen⟩
  have hpar : ∀ k < ls.length, layerParams w' (b + 1 + k) = layerParams w2 (b + 1 + k) := fun k hk =>
    layerParams_ext x2' (by rw [R.layers]) (by rw [R.layers]) (A.pready k hk)
  have hps : ((List.range ls.length).map fun k => layerParams w' (b + 1 + k)) =
      (List.range ls.length).map fun k => layerParams w2 (b + 1 + k) :=
    List.map_congr_left fun k hk => hpar k (List.mem_range.1 hk)
  refine ⟨?_, by rw [hnet], by rw [hnet], by rw [hnet], by rw [hnet]; exact hlast⟩
  refine ⟨lt_of_lt_of_le R.seq.pos (x12.trans x2').next, R.seq.rin.ext (x12.trans x2'), R.seq.shape, R.seq.nodup, A.ready.ext x2', A.oshape, ?_, rfl,
    ?_, ?_, ?_, ⟨x12.next, x2'.next⟩, ?_, ?_, ?_, fun k hk => by rw [R.layers]; exact A.both k hk, by rw [R.layers]; exact A.wn, by
      simp only
      rw [hps]; exact A.pdist⟩
  · have := R.seq.toSeqBase.preChain
    refine ⟨?_, fun k hk => ?_⟩
    · rw [R.layers, (A.same _).2.1]; exact this.first
    · rw [R.layers, (A.same _).2.1]; exact this.pre k hk
  · intro k hk n h
    rw [R.layers] at h
    obtain ⟨a, ra, nd⟩ := A.pready k hk n h
    exact ⟨a, ra.ext x2', nd⟩
  · intro k s hs
    rw [hpar k (List.getElem?_eq_some_iff.1 hs).1]
    exact A.pshape k s hs
  · simp only
    rw [hps]; exact A.stage
  · rintro q ⟨k, hk, hq⟩
    exact ⟨(R.seq.toSeqBase.at hk).own_lt hq, (R.seq.dis k hk q hq).1⟩
  · exact fun q hq => (R.seq.rin.good.valid q hq).2
  · intro q c hk
    obtain ⟨_, k2, _⟩ := A.stage.keep q c hk
    have := R.fin.val q k2 (fun h => h)
    show w'.store.heap.val q = c
    rw [show w'.store.heap.val q = w2.store.heap.val q from this]
    exact A.kept q c hk

/-- `Compile` touches nothing but the model and its layers -/
theorem CompileRun.apart {shape : List Nat} {ls : List (LSpec T)} {m b inp0 : Nat} {m0 : Mat} {ops : List (Op T)} {out : Nat}
    {outM : Mat} {K : Ptr → T → Prop} {w w1 w2 w' : World T} (R : CompileRun shape ls m b inp0 m0 ops out outM K w w1 w2 w') :
    Ext w w1 ∧ Ext w w' ∧ (∀ q, q < w.store.heap.next → w'.store.heap.val q = w.store.heap.val q) ∧
      (∀ l, ¬ (b ≤ l ∧ l ≤ b + ls.length) → w'.layers l = w.layers l) ∧ w'.layerNext = w.layerNext ∧ w'.netNext = w.netNext ∧
      (∀ l, ∃ bb r i, w1.layers l = { w.layers l with build := bb, ref := r, index := i }) := by
  obtain ⟨wb, rb, e1⟩ := R.refs
  have A := R.all
  have x01 : Ext w w1 := by rw [e1]; exact rb.grow.ext.trans (ext_clr wb)
  have x12 : Ext w1 w2 := A.grow.ext
  have x2' : Ext w2 w' := by
    have := R.fin.ext
    exact ⟨this.next, this.nodeNext, this.kind, this.frozen⟩
  refine ⟨x01, x01.trans (x12.trans x2'), fun q hq => ?_, fun l hl => ?_, ?_, ?_, ?_⟩
  · rw [show w'.store.heap.val q = w2.store.heap.val q from
      R.fin.val q (lt_of_lt_of_le hq (x01.trans x12).next) (fun h => h)]
    rw [A.grow.val q (lt_of_lt_of_le hq x01.next) ?_]
    · rw [e1]; exact rb.grow.val q hq (fun h => h)
    · rintro ⟨k, hk, e⟩
      have := (R.refval k hk).1
      omega
  · rw [R.layers, A.grow.layers l hl, e1]
    exact rb.grow.layers l hl
  · rw [show w'.layerNext = w2.layerNext from R.fin.layerNext, A.grow.layerNext, e1]; exact rb.grow.layerNext
  · rw [show w'.netNext = w2.netNext from R.fin.netNext, A.grow.netNext, e1]; exact rb.grow.netNext
  · rw [e1]; exact rb.same

/-- the scalars and tensors of `w` are unchanged -/
structure Unchanged (w w' : World T) : Prop where
  ext : Ext w w'
  val : ∀ q, q < w.store.heap.next → w'.store.heap.val q = w.store.heap.val q

/-- a compiled model, and what it was compiled from; `F`: it is a single sequential model -/
structure MadeF (F : Prop) (w0 w1 : World T) (m : Nat) (shape : List Nat) (ls : List (LSpec T)) (d : CData T) : Prop where
  apart : Unchanged w0 w1
  mid : w0.netNext ≤ m
  comp : Compiled m shape ls d w1
  base : d.b = w0.layerNext
  next : w1.layerNext = w0.layerNext + ls.length + 1
  low : ∀ q ∈ d.inM.ops, w0.store.heap.next ≤ q
  lo : w0.store.heap.next ≤ d.lo
  own : ∀ q, d.own q → w0.store.heap.next ≤ q
  nc : ∀ k ≤ ls.length, ∀ l1 l2 x, (w1.layers (d.b + k)).kind ≠ .concat l1 l2 x
  flagsF : F → ∀ k ≤ ls.length, (w1.layers (d.b + k)).build = true ∧ (w1.layers (d.b + k)).ff = true ∧
    0 < (w1.layers (d.b + k)).ref ∧ (w1.layers (d.b + k)).kind = (if k = 0 then .input else (ls.getD (k - 1) .flatten).kind) ∧
    (w1.layers (d.b + k)).ref < d.lo ∧ (w1.layers (d.b + k)).ref ∉ d.inM.ops ∧ ¬ d.own (w1.layers (d.b + k)).ref ∧
    w0.store.heap.next ≤ (w1.layers (d.b + k)).ref
  first : (w1.nets m).first = some d.b
  inp : (w1.layers d.b).input = some d.inp
  outF : F → (w1.layers (d.b + ls.length)).output = some d.out

/-- a compiled sequential model -/
abbrev Made (w0 w1 : World T) (m : Nat) (shape : List Nat) (ls : List (LSpec T)) (d : CData T) : Prop := MadeF True w0 w1 m shape ls d

theorem MadeF.flags {w0 w1 : World T} {m : Nat} {shape : List Nat} {ls : List (LSpec T)} {d : CData T}
    (M : Made w0 w1 m shape ls d) : ∀ k ≤ ls.length, (w1.layers (d.b + k)).build = true ∧ (w1.layers (d.b + k)).ff = true ∧
    0 < (w1.layers (d.b + k)).ref ∧ (w1.layers (d.b + k)).kind = (if k = 0 then .input else (ls.getD (k - 1) .flatten).kind) ∧
    (w1.layers (d.b + k)).ref < d.lo ∧ (w1.layers (d.b + k)).ref ∉ d.inM.ops ∧ ¬ d.own (w1.layers (d.b + k)).ref ∧
    w0.store.heap.next ≤ (w1.layers (d.b + k)).ref := M.flagsF trivial

theorem MadeF.out {w0 w1 : World T} {m : Nat} {shape : List Nat} {ls : List (LSpec T)} {d : CData T}
    (M : Made w0 w1 m shape ls d) : (w1.layers (d.b + ls.length)).output = some d.out := M.outF trivial

theorem MadeF.inside_in {F : Prop} {w0 w1 : World T} {m : Nat} {shape : List Nat} {ls : List (LSpec T)} {d : CData T}
    (M : MadeF F w0 w1 m shape ls d) {q : Ptr} (hq : q ∈ d.inM.ops) : ¬ Outside w0 w1 q := by
  rintro (h | h)
  · have := M.low q hq; omega
  · have := (M.comp.rin.good.valid q hq).2; omega

theorem MadeF.inside {F : Prop} {w0 w1 : World T} {m : Nat} {shape : List Nat} {ls : List (LSpec T)} {d : CData T}
    (M : MadeF F w0 w1 m shape ls d) {q : Ptr} (h1 : d.lo ≤ q) (h2 : q < d.hi) : ¬ Outside w0 w1 q := by
  have h3 := M.comp.hi
  have h4 := M.lo
  rintro (h | h) <;> omega

theorem MadeF.inside_dst {F : Prop} {w0 w1 : World T} {m : Nat} {shape : List Nat} {ls : List (LSpec T)} {d : CData T}
    (M : MadeF F w0 w1 m shape ls d) {q : Ptr} (hq : q ∈ dsts d.ops) : ¬ Outside w0 w1 q := by
  rcases M.comp.stage.dst q hq with h | h
  · exact M.inside h.1 h.2
  · have h1 := M.own q h
    have h2 := (M.comp.own q h).1
    have h3 := M.comp.hi
    rintro (h | h) <;> omega

theorem MadeF.inside_par {F : Prop} {w0 w1 : World T} {m : Nat} {shape : List Nat} {ls : List (LSpec T)} {d : CData T}
    (M : MadeF F w0 w1 m shape ls d) {p : List Mat} (hp : p ∈ d.ps) {a : Mat} (ha : a ∈ p) {q : Ptr} (hq : q ∈ a.ops) :
    ¬ Outside w0 w1 q := by
  obtain ⟨h1, h2, _⟩ := M.comp.stage.par p hp a ha q hq
  exact M.inside h1 h2

/-- making and compiling a sequential model -/
theorem compiled_run (hlaw : eq (add zero one) (zero : T) = false) {shape : List Nat} {ls : List (LSpec T)} {w0 : World T}
    (hpos : 0 < w0.store.heap.next) (hg : ∀ s ∈ ls, FFGood s) (hfit : Fits ls shape) :
    wp True (compiled shape ls) (fun m w1 => ∃ d ws wa wb, Made w0 w1 m shape ls d ∧
      SeqNew shape ls m d.b d.inp d.inM ws ∧
      CompileRun shape ls m d.b d.inp d.inM d.ops d.out d.outM d.K ws wa wb w1 ∧
      d.lo = wa.store.heap.next ∧ d.hi = wb.store.heap.next) w0 := by
  unfold compiled
  refine wp_bind (wp_mono (sequential_ok shape ls hpos) ?_)
  rintro m ws ⟨rfl, A, inp0, m0, S, low, own⟩
  refine wp_bind (wp_mono (compile_core hlaw S.made hg hfit) ?_)
  rintro _ w1 ⟨ops, out, outM, K, wa, wb, R⟩
  have R' := R
  obtain ⟨x1, x2, x3, x4, x5, x6, x7⟩ := R.apart
  refine wp_pure ⟨_, ws, wa, wb, ⟨⟨A.ext.trans x2, fun q hq => ?_⟩, le_refl _,
    R.compiled (by rw [S.net]), rfl, ?_, low, ?_, ?_, ?_, fun _ k hk => ?_, ?_,
    by rw [R.layers, R.all.input]; exact R.seq.input, fun _ => by rw [R.layers]; exact R.all.output⟩, S, R', rfl, rfl⟩
  · rw [x3 q (lt_of_lt_of_le hq A.ext.next), A.val q hq]
  · rw [x5, S.next]
  · exact le_trans A.ext.next x1.next
  · rintro q ⟨k, hk, hq⟩
    obtain ⟨bb, r, i, e⟩ := x7 (w0.layerNext + 1 + k)
    exact own k hk q (((S.toSeqBase.at hk).own_ext x1 e q).1 hq)
  · intro k hk l1 l2 x
    simp only
    rw [R.layers, (R.all.same _).1]
    rcases Nat.eq_zero_or_pos k with h | h
    · subst h; rw [Nat.add_zero, R.seq.kind]; simp
    · have hk1 : k - 1 < ls.length := by omega
      have := (R.seq.toSeqBase.at hk1).kind
      rw [show w0.layerNext + 1 + (k - 1) = w0.layerNext + k by omega] at this
      rw [this]; cases ls[k - 1] <;> simp [LSpec.kind]
  · simp only
    rw [R.layers]
    obtain ⟨a1, a2, _, _, _, _, _, a8⟩ := R.all.same (w0.layerNext + k)
    obtain ⟨j, hj, ej⟩ := R.all.refp k hk
    obtain ⟨r1, r2, _⟩ := R.seq.ref j hj
    have r3 := (R.refval j hj).1
    refine ⟨by rw [a8]; exact R.built k hk, R.all.ffs k hk, by rw [ej]; exact r1, ?_, by rw [ej]; exact r2, ?_, ?_, ?_⟩
    · rw [a1]
      rcases Nat.eq_zero_or_pos k with h | h
      · subst h; exact R.seq.kind
      · rw [if_neg (by omega)]
        have hk1 : k - 1 < ls.length := by omega
        have := (R.seq.toSeqBase.at hk1).kind
        rw [show w0.layerNext + 1 + (k - 1) = w0.layerNext + k by omega] at this
        rw [this]; simp [hk1]
    · rw [ej]; intro hm
      have := (S.rin.good.valid _ hm).2; omega
    · rw [ej]; rintro ⟨k', hk', hq⟩
      obtain ⟨bb, r, i, e⟩ := x7 (w0.layerNext + 1 + k')
      have := (S.toSeqBase.at hk').own_lt (((S.toSeqBase.at hk').own_ext x1 e _).1 hq)
      omega
    · rw [ej]; exact le_trans A.ext.next r3
  · obtain ⟨t, tM, _, _, _, _, hn⟩ := R.net
    rw [hn, S.net]

theorem compiled_ok (hlaw : eq (add zero one) (zero : T) = false) {shape : List Nat} {ls : List (LSpec T)} {w0 : World T}
    (hpos : 0 < w0.store.heap.next) (hg : ∀ s ∈ ls, FFGood s) (hfit : Fits ls shape) :
    wp True (compiled shape ls) (fun m w1 => ∃ d ws wa wb, Made w0 w1 m shape ls d ∧
      SeqNew shape ls m d.b d.inp d.inM ws ∧
      CompileRun shape ls m d.b d.inp d.inM d.ops d.out d.outM d.K ws wa wb w1) w0 :=
  wp_mono (compiled_run hlaw hpos hg hfit) fun _ _ ⟨d, ws, wa, wb, h1, h2, h3, _⟩ => ⟨d, ws, wa, wb, h1, h2, h3⟩

/-- the fields of a layer that matter for predictions -/
def _root_.Godeep.Layer.fwd (x : Layer T) : Layer T :=
  { x with trainable := false, bp := false, saved := false, loaded := false, nWeights := none, mWeights := none,
           nBias := none, mBias := none, der := none }

/-- the fields of a model that matter for predictions -/
def _root_.Godeep.Net.fwd (x : Net T) : Net T :=
  { x with target := none, alpha := 0, momentum := 0, loss := 0, bp := none, calDif := none, resetFit := none }

theorem _root_.Godeep.Layer.fwd_eq {x y : Layer T} (h : x.fwd = y.fwd) : x.kind = y.kind ∧ x.pre = y.pre ∧ x.weights = y.weights ∧
    x.bias = y.bias ∧ x.input = y.input ∧ x.neta = y.neta ∧ x.output = y.output ∧ x.dif = y.dif ∧ x.ref = y.ref ∧ x.act = y.act ∧
    x.build = y.build ∧ x.ff = y.ff :=
  ⟨(congrArg Layer.kind h :), (congrArg Layer.pre h :), (congrArg Layer.weights h :), (congrArg Layer.bias h :), (congrArg Layer.input h :),
    (congrArg Layer.neta h :), (congrArg Layer.output h :), (congrArg Layer.dif h :), (congrArg Layer.ref h :), (congrArg Layer.act h :),
    (congrArg Layer.build h :), (congrArg Layer.ff h :)⟩

theorem _root_.Godeep.Net.fwd_eq {x y : Net T} (h : x.fwd = y.fwd) : x.first = y.first ∧ x.last = y.last ∧ x.input = y.input ∧
    x.output = y.output ∧ x.ff = y.ff ∧ x.reset = y.reset :=
  ⟨(congrArg Net.first h :), (congrArg Net.last h :), (congrArg Net.input h :), (congrArg Net.output h :), (congrArg Net.ff h :),
    (congrArg Net.reset h :)⟩

/-- a state after any number of steps -/
structure Live (w0 w1 : World T) (m : Nat) (d : CData T) (a : World T) : Prop where
  ext : Ext w1 a
  layers : ∀ l, w0.layerNext ≤ l → l < w1.layerNext → (a.layers l).fwd = (w1.layers l).fwd
  nets : (a.nets m).fwd = (w1.nets m).fwd
  kept : ∀ q c, d.K q c → a.store.heap.val q = c
  layerNext : w1.layerNext ≤ a.layerNext

theorem Live.comp {F : Prop} {w0 w1 : World T} {m : Nat} {shape : List Nat} {ls : List (LSpec T)} {d : CData T} {a : World T}
    (L : Live w0 w1 m d a) (M : MadeF F w0 w1 m shape ls d) : Compiled m shape ls d a := by
  refine M.comp.later L.ext (fun k hk => ?_) ?_ L.kept
  · have := Layer.fwd_eq (L.layers (d.b + k) (by rw [M.base]; omega) (by rw [M.base, M.next]; omega))
    exact ⟨this.2.1, this.2.2.1, this.2.2.2.1⟩
  · obtain ⟨_, h2, h3, h4, h5, _⟩ := Net.fwd_eq L.nets
    exact ⟨h5, h3, h4, h2⟩

theorem MadeF.pars {F : Prop} {w0 w1 : World T} {m : Nat} {shape : List Nat} {ls : List (LSpec T)} {d : CData T} {a : World T}
    (M : MadeF F w0 w1 m shape ls d) (L : Live w0 w1 m d a) {l : Nat} {ps : List (List Mat)} (hl : (a.nets m).last = some l)
    (hp : ParamsOf a l ps) : ps = d.ps := by
  have C := L.comp M
  rw [C.last] at hl
  cases hl
  rw [hp.unique (paramsOf_chain C.chain), C.par]

theorem Live.predicted {w0 w1 : World T} {m : Nat} {shape : List Nat} {ls : List (LSpec T)} {d : CData T} {a b : World T}
    {x : STensor T} {r : Nat} (L : Live w0 w1 m d a) (P : Predicted m shape ls d x r a b) : Live w0 w1 m d b :=
  ⟨L.ext.trans P.ext, fun l h1 h2 => by rw [P.layers]; exact L.layers l h1 h2, by rw [P.nets]; exact L.nets, P.comp.kept,
    by rw [P.counts.1]; exact L.layerNext⟩

/-- the layers that feed the last one are `b`, ..., `b + n` -/
theorem chain_feeds {b n : Nat} {w : World T} (C : PreChain b n w) (hk : ∀ k ≤ n, ∀ l1 l2 d, (w.layers (b + k)).kind ≠ .concat l1 l2 d)
    {k : Nat} : Feeds w (b + n) k ↔ b ≤ k ∧ k ≤ b + n := by
  have hpar : ∀ j ≤ n, parents w (b + j) = (w.layers (b + j)).pre.toList := fun j hj => by
    unfold parents
    split
    · next e => exact (hk j hj _ _ _ e).elim
    · rfl
  constructor
  · intro h
    have key : ∀ l k, Feeds w l k → ∀ j ≤ n, l = b + j → b ≤ k ∧ k ≤ b + j := by
      intro l k h
      induction h with
      | refl l => rintro j _ rfl; omega
      | @step l p k hp _ ih =>
        rintro j hj rfl
        rw [hpar j hj] at hp
        cases j with
        | zero => rw [Nat.add_zero, C.first] at hp; cases hp
        | succ j =>
          have := C.pre j (by omega)
          rw [show b + 1 + j = b + (j + 1) by omega] at this
          rw [this] at hp
          simp only [Option.toList_some, List.mem_singleton] at hp
          have := ih j (by omega) hp
          omega
    exact key _ _ h n (le_refl _) rfl
  · rintro ⟨h1, h2⟩
    obtain ⟨j, rfl⟩ : ∃ j, k = b + j := ⟨k - b, by omega⟩
    have hj : j ≤ n := by omega
    suffices ∀ i, j + i ≤ n → Feeds w (b + (j + i)) (b + j) by
      have := this (n - j) (by omega)
      rwa [show j + (n - j) = n by omega] at this
    intro i
    induction i with
    | zero => intro _; exact .refl _
    | succ i ih =>
      intro hi
      refine .step (p := b + (j + i)) ?_ (ih (by omega))
      rw [hpar _ hi]
      have := C.pre (j + i) (by omega)
      rw [show b + 1 + (j + i) = b + (j + (i + 1)) by omega] at this
      rw [this]; simp

theorem Live.kind {w0 w1 : World T} {m : Nat} {shape : List Nat} {ls : List (LSpec T)} {d : CData T} {a : World T}
    (M : Made w0 w1 m shape ls d) (L : Live w0 w1 m d a) {k : Nat} (hk : k ≤ ls.length) :
    (a.layers (d.b + k)).kind = (if k = 0 then .input else (ls.getD (k - 1) .flatten).kind) := by
  rw [(Layer.fwd_eq (L.layers (d.b + k) (by rw [M.base]; omega) (by rw [M.base, M.next]; omega))).1]
  exact (M.flags k hk).2.2.2.1

theorem Live.not_concat {F : Prop} {w0 w1 : World T} {m : Nat} {shape : List Nat} {ls : List (LSpec T)} {d : CData T} {a : World T}
    (M : MadeF F w0 w1 m shape ls d) (L : Live w0 w1 m d a) : ∀ k ≤ ls.length, ∀ l1 l2 x, (a.layers (d.b + k)).kind ≠ .concat l1 l2 x := by
  intro k hk l1 l2 x
  rw [(Layer.fwd_eq (L.layers (d.b + k) (by rw [M.base]; omega) (by rw [M.base, M.next]; omega))).1]
  exact M.nc k hk l1 l2 x

theorem Live.feeds {F : Prop} {w0 w1 : World T} {m : Nat} {shape : List Nat} {ls : List (LSpec T)} {d : CData T} {a : World T}
    (M : MadeF F w0 w1 m shape ls d) (L : Live w0 w1 m d a) {k : Nat} : Feeds a (d.b + ls.length) k ↔ d.b ≤ k ∧ k ≤ d.b + ls.length :=
  chain_feeds (L.comp M).chain (L.not_concat M)

/-- the tensors a layer saves are its parameters -/
theorem Live.own_eq {F : Prop} {w0 w1 : World T} {m : Nat} {shape : List Nat} {ls : List (LSpec T)} {d : CData T} {a : World T}
    (M : MadeF F w0 w1 m shape ls d) (L : Live w0 w1 m d a) {k : Nat} (hk : k ≤ ls.length) :
    ownTensors a (d.b + k) = layerParams a (d.b + k) := by
  have C := L.comp M
  have hb := C.both k hk
  unfold ownTensors layerParams
  split
  · next e => exact (L.not_concat M k hk _ _ _ e).elim
  · cases h1 : (a.layers (d.b + k)).weights with
    | none => rw [hb.1 h1]; rfl
    | some x =>
      cases h2 : (a.layers (d.b + k)).bias with
      | none => rw [hb.2 h2] at h1; cases h1
      | some y => rfl

theorem Live.own_first {F : Prop} {w0 w1 : World T} {m : Nat} {shape : List Nat} {ls : List (LSpec T)} {d : CData T} {a : World T}
    (M : MadeF F w0 w1 m shape ls d) (L : Live w0 w1 m d a) : ownTensors a d.b = [] := by
  have h := L.own_eq M (Nat.zero_le _)
  rw [Nat.add_zero] at h
  rw [h]
  unfold layerParams
  rw [(L.comp M).wn.1]

theorem Live.own_params {F : Prop} {w0 w1 : World T} {m : Nat} {shape : List Nat} {ls : List (LSpec T)} {d : CData T} {a : World T}
    (M : MadeF F w0 w1 m shape ls d) (L : Live w0 w1 m d a) {l k : Nat} (hl : (a.nets m).last = some l) (hk : Feeds a l k) {y : Mat}
    (hy : y ∈ ownTensors a k) : ∃ p ∈ d.ps, y ∈ p := by
  have C := L.comp M
  rw [C.last] at hl
  cases hl
  obtain ⟨h1, h2⟩ := (L.feeds M).1 hk
  obtain ⟨j, rfl⟩ : ∃ j, k = d.b + j := ⟨k - d.b, by omega⟩
  rcases Nat.eq_zero_or_pos j with h | h
  · subst h
    rw [Nat.add_zero, L.own_first M] at hy; cases hy
  · rw [L.own_eq M (by omega)] at hy
    refine ⟨_, ?_, hy⟩
    rw [C.par]
    exact List.mem_map.2 ⟨j - 1, List.mem_range.2 (by omega), by rw [show d.b + 1 + (j - 1) = d.b + j by omega]⟩

/-- the fields of a layer that the uses of a model do not change -/
def _root_.Godeep.Layer.tr (x : Layer T) : Layer T := { x with trainable := false, saved := false, loaded := false }

theorem _root_.Godeep.Layer.fwd_of_tr {x y : Layer T} (h : x.tr = y.tr) : x.fwd = y.fwd := (congrArg Layer.fwd h :)

/-- what a use of a model changes -/
structure Touch (m : Nat) (d : CData T) (a b : World T) : Prop where
  ext : Ext a b
  layers : ∀ l, (b.layers l).tr = (a.layers l).tr
  nets : b.nets m = a.nets m
  layerNext : a.layerNext ≤ b.layerNext
  val : ∀ q, q < a.store.heap.next → q ∉ d.inM.ops → q ∉ dsts d.ops → (∀ p ∈ d.ps, ∀ y ∈ p, q ∉ y.ops) →
    b.store.heap.val q = a.store.heap.val q

theorem Touch.refl (m : Nat) (d : CData T) (a : World T) : Touch m d a a :=
  ⟨Ext.refl _, fun _ => rfl, rfl, le_refl _, fun _ _ _ _ _ => rfl⟩

theorem touch_use {F : Prop} {w0 w1 : World T} {m : Nat} {shape : List Nat} {ls : List (LSpec T)} {d : CData T} {a b : World T}
    (M : MadeF F w0 w1 m shape ls d) (L : Live w0 w1 m d a) (s : Use w0 w1 m a b) : Touch m d a b := by
  have C := L.comp M
  cases s with
  | predict hu he =>
    next t x =>
    by_cases hs : x.shape = shape
    · have := predict_compiled C hu.2.1 hs fun q hq hq' => M.inside_in hq' (hu.2.2 q hq)
      rcases he with ⟨r, he⟩ | ⟨e, he⟩
      · have P : Predicted m shape ls d x r a b := by rw [wp, he] at this; exact this
        exact ⟨P.ext, fun l => by rw [P.layers], by rw [P.nets], le_of_eq P.counts.1.symm, fun q h1 h2 h3 _ => P.val q h1 h2 h3⟩
      · exact absurd he (predict_noerr C hu.2.1 hs (fun q hq hq' => M.inside_in hq' (hu.2.2 q hq)) e b)
    · obtain ⟨e, he'⟩ := predict_shape C (t := t) (by rw [hu.2.1.shape]; exact hs)
      rw [he'] at he
      rcases he with ⟨r, he⟩ | ⟨e, he⟩
      · cases he
      · cases he; exact Touch.refl ..
  | save he =>
    next k k' =>
    obtain ⟨g, e⟩ := netSave_frame he
    rw [show b = _ from e]
    exact ⟨ext_of_eq (le_refl _) rfl rfl, fun _ => rfl, rfl, le_refl _, fun _ _ _ _ _ => rfl⟩
  | load he =>
    next r r' =>
    obtain ⟨g, h, e, hn, hv⟩ := netLoad_frame he
    rw [show b = _ from e]
    refine ⟨ext_of_eq (le_of_eq hn.symm) rfl rfl, fun _ => rfl, rfl, le_refl _, fun q _ _ _ h4 => ?_⟩
    refine hv q fun l hl k hk' y hy hq => ?_
    obtain ⟨p, hp, hyp⟩ := L.own_params M hl hk' hy
    exact h4 p hp y hyp hq
  | resetSave he =>
    obtain ⟨g, rfl⟩ := netResetSave_frame he
    exact ⟨ext_of_eq (le_refl _) rfl rfl, fun _ => rfl, rfl, le_refl _, fun _ _ _ _ _ => rfl⟩
  | resetLoad he =>
    obtain ⟨g, rfl⟩ := netResetLoad_frame he
    exact ⟨ext_of_eq (le_refl _) rfl rfl, fun _ => rfl, rfl, le_refl _, fun _ _ _ _ _ => rfl⟩
  | setTrainable he =>
    obtain ⟨g, rfl⟩ := netSetTrainable_frame he
    exact ⟨ext_of_eq (le_refl _) rfl rfl, fun _ => rfl, rfl, le_refl _, fun _ _ _ _ _ => rfl⟩
  | weights hl hp hn hv =>
    next h l ps =>
    rw [M.pars L hl hp] at hv
    refine ⟨ext_of_eq (le_of_eq hn.symm) rfl rfl, fun _ => rfl, rfl, le_refl _, fun q _ _ _ h4 => ?_⟩
    by_contra hne
    obtain ⟨p, h1, y, h2, h3⟩ := hv q hne
    exact h4 p h1 y h2 h3

theorem Live.touch {F : Prop} {w0 w1 : World T} {m : Nat} {shape : List Nat} {ls : List (LSpec T)} {d : CData T} {a b : World T}
    (M : MadeF F w0 w1 m shape ls d) (L : Live w0 w1 m d a) (h : Touch m d a b) : Live w0 w1 m d b := by
  have C := L.comp M
  refine ⟨L.ext.trans h.ext, fun l h1 h2 => (Layer.fwd_of_tr (h.layers l)).trans (L.layers l h1 h2), by rw [h.nets]; exact L.nets,
    fun q c hk => ?_, le_trans L.layerNext h.layerNext⟩
  obtain ⟨k1, k2, k3, k4⟩ := C.stage.keep q c hk
  rw [h.val q (lt_of_lt_of_le k2 C.hi.2) (fun hm => by have := C.inlt q hm; omega) k3 k4]
  exact L.kept q c hk

theorem live_step {F : Prop} {w0 w1 : World T} {m : Nat} {shape : List Nat} {ls : List (LSpec T)} {d : CData T} {a b : World T}
    (M : MadeF F w0 w1 m shape ls d) (L : Live w0 w1 m d a) (s : Step w0 w1 m a b) : Live w0 w1 m d b := by
  have C := L.comp M
  cases s with
  | use s => exact L.touch M (touch_use M L s)
  | elsewhere h1 h2 h0 h3 h4 h5 h6 h7 =>
    refine ⟨⟨le_trans L.ext.next h1, le_trans L.ext.nodeNext h2, fun n hn => ?_, fun n hn hf => ?_⟩, fun l hl1 hl2 => ?_, ?_, ?_, le_trans L.layerNext h0⟩
    · rw [h3 n hn, L.ext.kind n hn]
    · obtain ⟨y1, y2⟩ := L.ext.frozen n hn hf
      obtain ⟨z1, z2⟩ := h4 n hn y1
      exact ⟨z1, by rw [z2, y2]⟩
    · rw [h5 l hl1 hl2, L.layers l hl1 hl2]
    · rw [h6, L.nets]
    · intro q c hk
      obtain ⟨k1, k2, _⟩ := C.stage.keep q c hk
      rw [h7 q (M.inside k1 k2), L.kept q c hk]

theorem live_steps {F : Prop} {w0 w1 : World T} {m : Nat} {shape : List Nat} {ls : List (LSpec T)} {d : CData T} {a : World T}
    (M : MadeF F w0 w1 m shape ls d) (s : Steps w0 w1 m w1 a) : Live w0 w1 m d a := by
  have h0 : Live w0 w1 m d w1 := ⟨Ext.refl _, fun _ _ _ => rfl, rfl, M.comp.kept, le_refl _⟩
  generalize hw : w1 = w at s h0
  revert h0
  induction s with
  | none => subst hw; exact fun h => h
  | more _ h2 ih => subst hw; exact fun h0 => live_step M (ih h0) h2

/-- `Predict` of user tensors -/
theorem live_predict {F : Prop} {w0 w1 : World T} {m : Nat} {shape : List Nat} {ls : List (LSpec T)} {d : CData T} {a : World T}
    (M : MadeF F w0 w1 m shape ls d) (L : Live w0 w1 m d a) {t : Nat} {x : STensor T} (hu : UserTensor w0 w1 a t x)
    (hs : x.shape = shape) :
    wp (Safe ls shape) (NetM.predict m t) (fun r b => Predicted m shape ls d x r a b ∧ Live w0 w1 m d b) a :=
  wp_mono (predict_compiled (L.comp M) hu.2.1 hs fun q hq hq' => M.inside_in hq' (hu.2.2 q hq)) fun _ _ P => ⟨P, L.predicted P⟩

theorem Predicted.user {F : Prop} {w0 w1 : World T} {m : Nat} {shape : List Nat} {ls : List (LSpec T)} {d : CData T} {a b : World T}
    {x : STensor T} {r : Nat} (M : MadeF F w0 w1 m shape ls d) (P : Predicted m shape ls d x r a b) {n : Nat} {y : STensor T}
    (hu : UserTensor w0 w1 a n y) : UserTensor w0 w1 b n y := by
  have e := P.nodes.1 n (by have := hu.1; omega)
  refine ⟨by have := hu.1; rw [P.nodes.2]; omega, ?_, by rw [e]; exact hu.2.2⟩
  rw [e]
  refine hu.2.1.kept P.ext.next fun q hq => P.val q (hu.2.1.valid q hq).2 ?_ ?_
  · exact fun h => M.inside_in h (hu.2.2 q hq)
  · exact fun h => M.inside_dst h (hu.2.2 q hq)

theorem Live.hasParams {F : Prop} {w0 w1 : World T} {m : Nat} {shape : List Nat} {ls : List (LSpec T)} {d : CData T} {a : World T}
    (M : MadeF F w0 w1 m shape ls d) (L : Live w0 w1 m d a) {pv : List (List (STensor T))} :
    HasParams a m pv ↔ List.Forall₂ (List.Forall₂ (Holds a.store.heap)) d.ps pv := by
  have C := L.comp M
  constructor
  · rintro ⟨l, ps, h1, h2, h3⟩
    rw [M.pars L h1 h2] at h3; exact h3
  · intro h
    exact ⟨_, d.ps, C.last, by rw [C.par]; exact paramsOf_chain C.chain, h⟩

theorem Predicted.params {F : Prop} {w0 w1 : World T} {m : Nat} {shape : List Nat} {ls : List (LSpec T)} {d : CData T} {a b : World T}
    {x : STensor T} {r : Nat} (M : MadeF F w0 w1 m shape ls d) (L : Live w0 w1 m d a) (P : Predicted m shape ls d x r a b)
    {pv : List (List (STensor T))} (h : HasParams a m pv) : HasParams b m pv := by
  rw [L.hasParams M] at h
  rw [(L.predicted P).hasParams M]
  have C := L.comp M
  refine forall₂_kept P.ext.next (fun p hp y hy q hq => ?_) h
  obtain ⟨h1, h2, h3⟩ := C.stage.par p hp y hy q hq
  exact P.val q (lt_of_lt_of_le h2 C.hi.2) (fun hm => by have := C.inlt q hm; omega) h3

theorem Predicted.result {F : Prop} {w0 w1 : World T} {m : Nat} {shape : List Nat} {ls : List (LSpec T)} {d : CData T} {a b : World T}
    {x : STensor T} {r : Nat} (M : MadeF F w0 w1 m shape ls d) (L : Live w0 w1 m d a) (P : Predicted m shape ls d x r a b)
    {pv : List (List (STensor T))} (h : HasParams a m pv) : UserTensor w0 w1 b r (netFn ls pv x) := by
  rw [L.hasParams M] at h
  obtain ⟨rfl, rM, h1, h2, h3, h4, h5⟩ := P.fresh
  refine ⟨h1.lt, by rw [h1.mat]; exact h5 pv h, fun q hq => ?_⟩
  rw [h1.mat] at hq
  exact Or.inr (le_trans L.ext.next (h3 q hq))

/-- a model has weights and biases of the right shapes -/
theorem Live.someParams {F : Prop} {w0 w1 : World T} {m : Nat} {shape : List Nat} {ls : List (LSpec T)} {d : CData T} {a : World T}
    (M : MadeF F w0 w1 m shape ls d) (L : Live w0 w1 m d a) :
    ∃ pv, HasParams a m pv ∧ pv.length = ls.length ∧ ∀ k s, ls[k]? = some s →
      (pv.getD k []).map STensor.shape = s.paramShapes (outShapes (ls.take k) shape) := by
  have C := L.comp M
  refine ⟨d.ps.map fun p => p.map (ofMat a.store.heap.val), (L.hasParams M).2 ?_, by rw [C.par]; simp, fun k s hs => ?_⟩
  · rw [List.forall₂_map_right_iff, List.forall₂_same]
    intro p hp
    rw [List.forall₂_map_right_iff, List.forall₂_same]
    intro y hy
    refine good_holds ?_
    rw [C.par] at hp
    obtain ⟨k, hk, rfl⟩ := List.mem_map.1 hp
    have hr := C.pready k (List.mem_range.1 hk)
    unfold layerParams at hy
    split at hy
    · next n1 n2 e1 e2 =>
      simp only [List.mem_cons, List.not_mem_nil, or_false] at hy
      rcases hy with rfl | rfl
      · obtain ⟨y, ry, _⟩ := hr n1 (Or.inl e1)
        rw [ry.mat]; exact ry.good
      · obtain ⟨y, ry, _⟩ := hr n2 (Or.inr e2)
        rw [ry.mat]; exact ry.good
    · simp at hy
  · have hk := (List.getElem?_eq_some_iff.1 hs).1
    rw [← C.pshape k s hs]
    simp only [C.par, List.map_map, List.getD_eq_getElem?_getD, List.getElem?_map, List.getElem?_range hk, Option.map_some,
      Option.getD_some, Function.comp_apply]
    rfl

/-- `Compile` of a model that is already compiled: the graph is empty -/
theorem recompile_ok {w0 w1 : World T} {m : Nat} {shape : List Nat} {ls : List (LSpec T)} {d : CData T} {a : World T}
    (M : Made w0 w1 m shape ls d) (L : Live w0 w1 m d a) :
    wp True (NetM.compile m) (fun _ b => Ext a b ∧ b.layers = a.layers ∧ b.layerNext = a.layerNext ∧
      (∀ q, q < a.store.heap.next → q ≠ (w1.layers (d.b + ls.length)).ref → b.store.heap.val q = a.store.heap.val q) ∧
      (∀ k, k ≠ a.nodeNext → b.store.nodes k = a.store.nodes k) ∧
      ∃ t, b.nets m = { a.nets m with ff := some [], reset := some [], target := some t }) a := by
  have C := L.comp M
  have hlay : ∀ k ≤ ls.length, (a.layers (d.b + k)).fwd = (w1.layers (d.b + k)).fwd := fun k hk =>
    L.layers _ (by rw [M.base]; omega) (by rw [M.base, M.next]; omega)
  obtain ⟨f1, f2, f3, f4, f5, _⟩ := M.flags _ (le_refl ls.length)
  obtain ⟨i1, i2, i3, i4, i5, i6, i7, i8, i9, i10, i11, i12⟩ := Layer.fwd_eq (hlay _ (le_refl ls.length))
  rw [← i11] at f1
  rw [← i12] at f2
  rw [← i9] at f3 f5 ⊢
  rw [← i1] at f4
  unfold NetM.compile
  refine wp_bind (wp_net ?_)
  refine wp_bind (wp_deref C.last ?_)
  set lst := d.b + ls.length with hlst
  have eref : LayerM.addRef lst one a = .ok () (putW (a.layers lst).ref
      (add (a.store.heap.val (a.layers lst).ref) one) a) := by
    show (LayerM.getRef lst a).bind _ = _
    rw [getRef_old f3]
    show (Run.value (a.layers lst).ref a).bind _ = _
    rw [value_ok f3]
    exact setValue_ok f3 _
  refine wp_bind (wp_of_ok eref ?_)
  set wa := putW (a.layers lst).ref (add (a.store.heap.val (a.layers lst).ref) one) a with hwa
  refine wp_bind (wp_of_ok (r := a.layerNext + 1) (w' := wa) rfl ?_)
  have eb : LayerM.build (a.layerNext + 1) lst wa = .ok (a.layers lst).index wa := by
    show (if (a.layers lst).build then pure (a.layers lst).index else _ : Run T Nat) wa = _
    rw [f1]; rfl
  refine wp_bind (wp_of_ok eb ?_)
  refine wp_bind (wp_of_ok (r := ()) (w' := clr wa) rfl ?_)
  have ef : LayerM.feedForward (a.layerNext + 1) lst (clr wa) = .ok () (clr wa) := by
    show (if (a.layers lst).ff then pure () else _ : Run T Unit) (clr wa) = _
    rw [f2]; rfl
  refine wp_bind (wp_of_ok ef ?_)
  refine wp_bind (wp_of_ok (r := []) (w' := clr wa) rfl ?_)
  refine wp_bind (wp_of_ok (r := ()) (w' := clr wa) rfl ?_)
  have hln : ls.length < a.layerNext + 1 := by have := L.layerNext; rw [M.next] at this; omega
  refine wp_bind (wp_of_ok (reset_ok (w := clr wa) ⟨C.chain.first, C.chain.pre⟩ hln) ?_)
  refine wp_bind (wp_of_ok (r := []) (w' := clr wa) rfl ?_)
  refine wp_bind (wp_of_ok (r := ()) (w' := updN m (fun x => { x with ff := some [], reset := some [] }) (clr wa)) rfl ?_)
  set w3 := updN m (fun x => { x with ff := some [], reset := some [] }) (clr wa) with hw3
  refine wp_bind (wp_deref (a := d.b) (by rw [(Net.fwd_eq L.nets).1]; exact M.first) ?_)
  have h0 := hlay 0 (Nat.zero_le _)
  have hin : ∃ i, LayerM.getInputs (a.layerNext + 1) d.b w3 = .ok i w3 ∧ i = (a.layers d.b).input := by
    refine ⟨_, ?_, rfl⟩
    show (match (a.layers d.b).kind, (a.layers d.b).pre with
      | .input, some p => LayerM.getOutputs _ p
      | _, _ => pure (a.layers d.b).input : Run T (Option Nat)) w3 = _
    rw [C.chain.first]
    cases (a.layers d.b).kind <;> rfl
  obtain ⟨i, hin, hi⟩ := hin
  rw [Nat.add_zero] at h0
  rw [(Layer.fwd_eq h0).2.2.2.2.1, M.inp] at hi
  subst hi
  refine wp_bind (wp_of_ok hin ?_)
  refine wp_bind (wp_of_ok (r := ()) (w' := updN m (fun x => { x with input := some d.inp }) w3) rfl ?_)
  set w4 := updN m (fun x => { x with input := some d.inp }) w3 with hw4
  have hout : LayerM.getOutputs (a.layerNext + 1) lst w4 = .ok (some d.out) w4 := by
    have := delegated_ok (field := Layer.output) (fuel := a.layerNext + 1) (p := lst) (w := w4) (by omega) ?_
    · rw [show w4.layers = a.layers from rfl, i7, M.out] at this
      exact this
    · show (a.layers _).pre = none ∨ ∃ s : LSpec T, (a.layers _).kind = s.kind
      rcases Nat.eq_zero_or_pos ls.length with h | h
      · left; rw [hlst, h]; exact C.chain.first
      · right; rw [f4, if_neg (by omega)]; exact ⟨_, rfl⟩
  refine wp_bind (wp_of_ok hout ?_)
  refine wp_bind (wp_of_ok (r := ()) (w' := updN m (fun x => { x with output := some d.out }) w4) rfl ?_)
  set w5 := updN m (fun x => { x with output := some d.out }) w4 with hw5
  refine wp_bind (wp_deref rfl ?_)
  have e5 : Ext a w5 := ext_of_eq (le_refl _) rfl rfl
  refine wp_bind (wp_copyTensor (L := fun _ => False) (C := fun _ => False) (C.rout.ext e5) (lt_of_lt_of_le C.pos e5.next)
    fun w6 c g6 l6 x6 r6 nd6 f6 h6 s6 o6 => ?_)
  refine wp_of_ok (r := ()) (w' := updN m (fun x => { x with target := some w5.nodeNext }) w6) rfl ?_
  refine ⟨e5.trans (g6.ext.trans (ext_of_eq (le_refl _) rfl rfl)), l6, g6.layerNext, fun q h1 h2 => ?_, o6, w5.nodeNext, ?_⟩
  · show w6.store.heap.val q = _
    rw [g6.val q h1 (fun h => h)]
    show (a.store.heap.put _ _).val q = _
    simp [Heap.put, h2]
  · rw [updN_same, g6.nets, hw5, updN_same, hw4, updN_same, hw3, updN_same]
    have en : (clr wa).nets m = a.nets m := rfl
    rw [en]
    simp only [Net.mk.injEq, true_and, and_true]
    exact ⟨C.input.symm, C.output.symm⟩

/-- giving all weights and biases the value `v` -/
theorem setConst {h0 : Heap T} {ps : List (List Mat)} {pv : List (List (STensor T))}
    (hp : List.Forall₂ (List.Forall₂ (Holds h0)) ps pv) (v : T) :
    ∃ h : Heap T, h.next = h0.next ∧ (∀ q, h.val q ≠ h0.val q → ∃ p ∈ ps, ∃ x ∈ p, q ∈ x.ops) ∧
      List.Forall₂ (List.Forall₂ (Holds h)) ps (ps.map fun p => p.map fun y => ⟨y.shape, fun _ => v⟩) := by
  classical
  refine ⟨⟨fun q => if ∃ p ∈ ps, ∃ x ∈ p, q ∈ x.ops then v else h0.val q, h0.next⟩, rfl, ?_, ?_⟩
  · intro q hq
    by_contra hn
    exact hq (if_neg hn)
  · rw [List.forall₂_map_right_iff, List.forall₂_same]
    intro p hp'
    rw [List.forall₂_map_right_iff, List.forall₂_same]
    intro y hy
    obtain ⟨i, hi, rfl⟩ := List.getElem_of_mem hp'
    rw [List.forall₂_iff_get] at hp
    have h2 := hp.2 i hi (hp.1 ▸ hi)
    rw [List.forall₂_iff_get] at h2
    obtain ⟨j, hj, rfl⟩ := List.getElem_of_mem hy
    have h3 := h2.2 j hj (h2.1 ▸ hj)
    have g : GoodMat h0 (ps[i][j]) := ⟨h3.mul, h3.len, h3.valid⟩
    refine holds_of_cell ⟨g.mul, g.len, g.valid⟩ rfl fun idx hidx => ?_
    have hm := cell_mem g hidx
    exact if_pos ⟨_, hp', _, hy, hm⟩

theorem live_setParams {F : Prop} {w0 w1 : World T} {m : Nat} {shape : List Nat} {ls : List (LSpec T)} {d : CData T} {a : World T}
    (M : MadeF F w0 w1 m shape ls d) (L : Live w0 w1 m d a) (v : T) :
    ∃ h : Heap T, h.next = a.store.heap.next ∧
      (∀ q, h.val q ≠ a.store.heap.val q → ∃ p ∈ d.ps, ∃ x ∈ p, q ∈ x.ops) ∧
      List.Forall₂ (List.Forall₂ (Holds h)) d.ps (d.ps.map fun p => p.map fun y => ⟨y.shape, fun _ => v⟩) := by
  obtain ⟨pv, hp, _⟩ := L.someParams M
  rw [L.hasParams M] at hp
  exact setConst hp v

/-- `Predict` after `Compile` was called again: whatever the output tensor holds -/
theorem predict_stale {m : Nat} {a : World T} {i o t : Nat} {inM outM : Mat} {x y : STensor T} (hpos : 0 < a.store.heap.next)
    (hff : (a.nets m).ff = some []) (hi : (a.nets m).input = some i) (ho : (a.nets m).output = some o)
    (ri : Ready a i inM) (nd : inM.ops.Nodup) (ro : Ready a o outM)
    (hx : Holds a.store.heap (a.store.nodes t).mat x) (hs : x.shape = inM.shape)
    (hal : ∀ q ∈ (a.store.nodes t).mat.ops, q ∉ inM.ops) (hin : Holds a.store.heap inM x) (hout : Holds a.store.heap outM y) :
    wp True (NetM.predict m t) (fun r b => Holds b.store.heap (b.store.nodes r).mat y) a := by
  unfold NetM.predict
  refine wp_bind (wp_net ?_)
  rw [hff]
  refine wp_bind (wp_net ?_)
  refine wp_bind (wp_deref hi ?_)
  obtain ⟨h1, e1, H1, n1, v1⟩ := loadFrom_ok ri nd hx hs hal
  refine wp_bind (wp_of_ok e1 ?_)
  have hv : ∀ q, h1.val q = a.store.heap.val q := by
    intro q
    by_cases hq : q ∈ inM.ops
    · have g : GoodMat a.store.heap inM := ri.good
      obtain ⟨j, hj, rfl⟩ := List.getElem_of_mem hq
      have hj' : j < size inM.shape := by rw [← g.len]; exact hj
      have k1 := holds_cell H1 (idx := unflat inM.shape j) (unflat_inRange hj')
      have k2 := holds_cell hin (idx := unflat inM.shape j) (unflat_inRange hj')
      have ec : cell inM (unflat inM.shape j) = inM.ops[j] := by
        rw [cell_unflat hj']; simp [hj]
      rw [ec] at k1 k2
      rw [k1, k2]
    · exact v1 q hq
  refine wp_bind (wp_run hff (fun _ => ⟨_, rfl⟩) fun h2 e2 => ?_)
  simp only [exec, Out.ok.injEq, true_and] at e2
  subst e2
  set w2 : World T := { a with store := { a.store with heap := h1 } } with hw2
  have x02 : Ext a w2 := ext_of_eq (le_of_eq n1.symm) rfl rfl
  refine wp_bind (wp_deref ho ?_)
  refine wp_copyTensor (L := fun _ => False) (C := fun _ => False) (ro.ext x02)
    (lt_of_lt_of_le hpos x02.next) fun w3 c g3 l3 x3 r3 nd3 f3 h3 s3 o3 => ?_
  rw [r3.mat]
  exact h3 _ (hout.kept (le_of_eq n1.symm) fun q _ => hv q)

end Godeep
