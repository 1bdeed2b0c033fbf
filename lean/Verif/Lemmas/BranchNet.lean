import Verif.Lemmas.BranchFF
import Verif.Lemmas.Predict
/-
  Compiling and using models with branches.
-/
set_option linter.unusedSectionVars false
namespace Godeep
open GoNum Spec

variable {T : Type} [GoNum T]

/-- `Reset` of a graph follows the connections -/
theorem reset_graph {b N : Nat} {w : World T}
    (h : ∀ k ≤ N, (w.layers (b + k)).pre = none ∨ ∃ p < k, (w.layers (b + k)).pre = some (b + p)) :
    ∀ (f k : Nat), k ≤ N → k < f → LayerM.reset f (b + k) w = .ok () w := by
  intro f
  induction f with
  | zero => intro k _ h; omega
  | succ f ih =>
    intro k hk hf
    show (match (w.layers (b + k)).pre with
      | some p => LayerM.reset f p
      | none => pure () : Run T Unit) w = _
    rcases h k hk with e | ⟨p, hp, e⟩
    · rw [e]; rfl
    · rw [e]; exact ih p (by omega) (by omega)

/-- no layer has its feed-forward part yet -/
theorem GBase.start {shape : List Nat} {ns : List (BNode T)} {b inp0 : Nat} {m0 : Mat} {w : World T}
    (S : GBase shape ns b inp0 m0 w) : BrFF shape ns b inp0 m0 (fun _ => False) [] (fun _ _ => False) w w := by
  refine ⟨fun _ h => h.elim, .refl _ _ _, fun k _ _ => ⟨(w.layers (b + k)).ff, rfl⟩, fun _ h => h.elim, fun _ h => h.elim, fun _ h => h.elim,
    fun _ h => h.elim, fun _ h => h.elim, fun _ h => h.elim, ⟨S.input, S.wn⟩, by simp [dsts], fun _ h => h.elim, fun _ h => h.elim,
    fun _ _ h => h.elim, fun _ _ h => h.elim, fun _ _ _ _ _ _ _ _ _ _ _ h => h.elim, by simp, fun _ _ h => h.elim, fun _ h => h.elim, fun _ _ _ _ h => h.elim⟩

theorem GBase.pre_lt {shape : List Nat} {ns : List (BNode T)} {b inp0 : Nat} {m0 : Mat} {w : World T}
    (S : GBase shape ns b inp0 m0 w) (hrd : ∀ (k : Nat) (n : BNode T), ns[k]? = some n → ∀ p ∈ n.reads, p ≤ k) {k : Nat} (hk : k ≤ ns.length) :
    (w.layers (b + k)).pre = none ∨ ∃ p < k, (w.layers (b + k)).pre = some (b + p) := by
  cases k with
  | zero => exact Or.inl S.pre
  | succ k =>
    obtain ⟨n, hn⟩ : ∃ n, ns[k]? = some n := ⟨_, List.getElem?_eq_getElem hk⟩
    have N := S.node hn
    cases n with
    | layer s p => exact Or.inr ⟨p, by have := hrd k _ hn p (by simp [BNode.reads]); omega, N.pre⟩
    | concat i j d => exact Or.inl N.pre

/-- what `Compile` of a model with branches has done: `w1` is the world after `Build`, `w2` after
`BuildFeedforward` -/
structure GRun (shape : List Nat) (ns : List (BNode T)) (o m b inp0 : Nat) (m0 : Mat) (R V : Nat → Prop) (ops : List (Op T)) (out : Nat)
    (K : Ptr → T → Prop) (w w1 w2 w' : World T) : Prop where
  gat : BrGAt shape ns b inp0 m0 R w1
  refs : ∃ wb, Refs (fun l => b ≤ l ∧ l ≤ b + ns.length) w wb ∧ w1 = clr wb
  refval : ∀ k ≤ ns.length, R k → w.store.heap.next ≤ (w1.layers (b + k)).ref
  vo : V o
  vr : ∀ k, V k → R k
  all : BrFF shape ns b inp0 m0 V ops K w1 w2
  outp : (w2.layers (b + o)).output = some out
  fin : Grow (fun _ => False) (fun _ => False) [] (clr w2) { w' with nets := w2.nets }
  layers : w'.layers = w2.layers
  net : ∃ t, w'.nets m = { w.nets m with ff := some ops, reset := some [], input := some inp0, output := some out, target := some t }

theorem compile_graph {shape : List Nat} {ns : List (BNode T)} {o m b inp0 : Nat} {m0 : Mat} {w : World T}
    (hlaw : ∀ c, 0 < c → c ≤ 2 * ns.length + 3 → eq (counted c) (zero : T) = false) (S : GNew shape ns b inp0 m0 w)
    (hnet : (w.nets m).first = some b ∧ (w.nets m).last = some (b + o))
    (hg : ∀ s : LSpec T, FFGood s) (hfit : GraphFits ns shape) (ho : o ≤ ns.length) :
    wp True (NetM.compile m) (fun _ w' => ∃ R V ops out K w1 w2, GRun shape ns o m b inp0 m0 R V ops out K w w1 w2 w') w := by
  have hrd : ∀ (k : Nat) (n : BNode T), ns[k]? = some n → ∀ p ∈ n.reads, p ≤ k := fun k n h => (hfit k n h).1
  unfold NetM.compile
  refine wp_bind (wp_net ?_)
  refine wp_bind (wp_deref (a := b + o) hnet.2 ?_)
  obtain ⟨wa, ea, Ra, la, na, va⟩ := addRef_new S.pos (S.new o ho).1 one
  refine wp_bind (wp_of_ok ea ?_)
  have hfuel : Run.fuel wa = .ok (wa.layerNext + 1) wa := rfl
  refine wp_bind (wp_of_ok hfuel ?_)
  have hln : b + ns.length + 1 ≤ wa.layerNext := by rw [Ra.grow.layerNext, S.next]
  have hsa : ∀ k, k ≠ o → wa.layers (b + k) = w.layers (b + k) := fun k hk => Ra.grow.layers _ (by omega)
  have hro : (wa.layers (b + o)).ref = w.store.heap.next := by rw [la]
  have hpos := S.pos
  have hbf : ∀ k ≤ ns.length, (wa.layers (b + k)).build = false := fun k hk => by
    by_cases h : k = o
    · subst h; rw [la]; exact (S.new k hk).2
    · rw [hsa k h]; exact (S.new k hk).2
  have hr0 : ∀ k ≤ ns.length, (wa.layers (b + k)).ref ≠ 0 → k = o := fun k hk h => by
    by_contra hne
    rw [hsa k hne] at h
    exact h (S.new k hk).1
  have I : BInv b ns.length 1 w wa := by
    refine ⟨Ra.weaken fun l hl => by omega, fun k hk h => ?_, fun j k hj hk e h => ?_, fun k hk h => ?_⟩
    · obtain rfl := hr0 k hk h
      rw [hro]
      exact ⟨le_refl _, by omega, 1, by omega, by omega, va⟩
    · rw [hr0 j hj h, hr0 k hk (by rwa [← e])]
    · rw [hbf k hk] at h; cases h
  have hub := unb_le (b := b) (N := ns.length) wa
  refine wp_bind (wp_mono (build_graph S.toGBase hrd hlaw I ho (by omega) (by rw [hro]; omega) (by omega)) ?_)
  rintro _ wb ⟨n', J, hn', G, hbo⟩
  refine wp_bind (wp_of_ok (r := ()) (w' := clr wb) rfl ?_)
  obtain ⟨R, hR⟩ : ∃ R : Nat → Prop, R = fun k => (wb.layers (b + k)).build = true := ⟨_, rfl⟩
  have SA : BrGAt shape ns b inp0 m0 R (clr wb) := by
    refine ⟨S.toGBase.ext (J.refs.grow.ext.trans (ext_clr wb)) fun k _ => J.refs.same (b + k), fun k hk h => ?_,
      fun j k hj hk h1 h2 e => ?_, fun k hk h d hd => ?_⟩
    · rw [hR] at h
      obtain ⟨x1, x2, c, x3, x4, x5⟩ := J.cnt k hk (J.flg k hk h)
      refine ⟨lt_of_lt_of_le S.pos x1, x2, ?_⟩
      show eq (wb.store.heap.val (wb.layers (b + k)).ref) zero = false
      rw [x5]; exact hlaw c x3 (by omega)
    · rw [hR] at h1
      exact J.inj j k hj hk e (J.flg j hj h1)
    · rw [hR] at h ⊢
      exact G.close k hk h (hbf k hk) d hd
  have hRo : R o := by rw [hR]; exact hbo
  refine wp_bind (wp_mono (ff_graph SA hg hfit _ o _ _ _ _ (by omega) ho hRo SA.toGBase.start (fun _ h => h.elim) fun j hj _ => ?_) ?_)
  · cases j with
    | zero => exact SA.ff
    | succ j =>
      obtain ⟨n, hn⟩ : ∃ n, ns[j]? = some n := ⟨_, List.getElem?_eq_getElem (by omega)⟩
      exact (SA.toGBase.node hn).ff
  rintro _ w2 ⟨V, ops, K, A, hVo, _, _, hVR, _⟩
  refine wp_bind (wp_of_ok (r := w2.store.ctx) (w' := w2) rfl ?_)
  have hctx : w2.store.ctx = ops := by rw [A.grow.ctx]; rfl
  rw [hctx]
  refine wp_bind (wp_of_ok (r := ()) (w' := clr w2) rfl ?_)
  have hsame : ∀ k ≤ ns.length, (w2.layers (b + k)).kind = ((clr wb).layers (b + k)).kind ∧ (w2.layers (b + k)).pre = ((clr wb).layers (b + k)).pre := by
    intro k hk
    by_cases h : V k
    · exact (A.seen k h).2
    · obtain ⟨f, e⟩ := A.rest k hk h
      rw [e]; exact ⟨rfl, rfl⟩
  refine wp_bind (wp_of_ok (reset_graph (w := clr w2) (N := ns.length) (fun k hk => ?_) _ o ho (by omega)) ?_)
  · show (w2.layers (b + k)).pre = none ∨ ∃ p < k, (w2.layers (b + k)).pre = some (b + p)
    rw [(hsame k hk).2]
    exact SA.toGBase.pre_lt hrd hk
  refine wp_bind (wp_of_ok (r := []) (w' := clr w2) rfl ?_)
  refine wp_bind (wp_of_ok (r := ()) (w' := updN m (fun x => { x with ff := some ops, reset := some [] }) (clr w2)) rfl ?_)
  set w3 := updN m (fun x => { x with ff := some ops, reset := some [] }) (clr w2) with hw3
  refine wp_bind (wp_deref (a := b) hnet.1 ?_)
  have hin : LayerM.getInputs (wa.layerNext + 1) b w3 = .ok (some inp0) w3 := by
    show (match (w2.layers b).kind, (w2.layers b).pre with
      | .input, some p => LayerM.getOutputs _ p
      | _, _ => pure (w2.layers b).input : Run T (Option Nat)) w3 = _
    have := hsame 0 (Nat.zero_le _)
    simp only [Nat.add_zero] at this
    rw [this.1, this.2, A.in0.1]
    rw [SA.kind, SA.pre]
    rfl
  refine wp_bind (wp_of_ok hin ?_)
  refine wp_bind (wp_of_ok (r := ()) (w' := updN m (fun x => { x with input := some inp0 }) w3) rfl ?_)
  set w4 := updN m (fun x => { x with input := some inp0 }) w3 with hw4
  obtain ⟨out, eout, rout⟩ := A.out o hVo
  have hout : LayerM.getOutputs (wa.layerNext + 1) (b + o) w4 = .ok (some out) w4 := by
    have := delegated_ok (field := Layer.output) (fuel := wa.layerNext + 1) (p := b + o) (w := w4) (by omega) ?_
    · rw [show w4.layers = w2.layers from rfl, eout] at this
      exact this
    · show (w2.layers _).pre = none ∨ ∃ s : LSpec T, (w2.layers _).kind = s.kind
      rw [(hsame o ho).1, (hsame o ho).2]
      exact SA.toGBase.plain ho
  refine wp_bind (wp_of_ok hout ?_)
  refine wp_bind (wp_of_ok (r := ()) (w' := updN m (fun x => { x with output := some out }) w4) rfl ?_)
  set w5 := updN m (fun x => { x with output := some out }) w4 with hw5
  refine wp_bind (wp_deref rfl ?_)
  have e25 : Ext w2 w5 := ext_of_eq (le_refl _) rfl rfl
  have q5 : 0 < w5.store.heap.next := lt_of_lt_of_le SA.pos A.grow.next
  refine wp_bind (wp_copyTensor (L := fun _ => False) (C := fun _ => False) (rout.ext e25) q5
    fun w6 c g6 l6 x6 r6 nd6 f6 h6 s6 _ => ?_)
  refine wp_of_ok (r := ()) (w' := updN m (fun x => { x with target := some w5.nodeNext }) w6) rfl ?_
  have hnet6 : w6.nets = w5.nets := g6.nets
  have hnw2 : w2.nets = w.nets := by rw [A.grow.nets]; exact J.refs.grow.nets
  refine ⟨R, V, ops, out, K, clr wb, w2, SA, ⟨wb, J.refs, rfl⟩, ?_, hVo, hVR, A, eout, ?_, ?_, ?_⟩
  · intro k hk h
    rw [hR] at h
    exact (J.cnt k hk (J.flg k hk h)).1
  · refine ⟨g6.next, g6.val, g6.nodeNext, g6.kind, g6.frozen, fun l h => g6.layers l h, g6.layerNext, rfl, g6.netNext, g6.ctx⟩
  · exact l6
  · refine ⟨w5.nodeNext, ?_⟩
    rw [updN_same, hnet6, hw5, updN_same, hw4, updN_same, hw3, updN_same]
    rw [show (clr w2).nets m = w.nets m by rw [← hnw2]; rfl]

/-- model `m`, with branches, is compiled -/
structure BComp (m : Nat) (shape : List Nat) (ns : List (BNode T)) (o : Nat) (d : CData T) (w : World T) : Prop where
  pos : 0 < w.store.heap.next
  rin : Ready w d.inp d.inM
  ishape : d.inM.shape = shape
  nodup : d.inM.ops.Nodup
  rout : Ready w d.out d.outM
  ps : d.ps = (List.range ns.length).map fun k => layerParams w (d.b + 1 + k)
  pready : ∀ k < ns.length, ∀ n, ((w.layers (d.b + 1 + k)).weights = some n ∨ (w.layers (d.b + 1 + k)).bias = some n) →
    ∃ m, Ready w n m ∧ m.ops.Nodup
  wn : (w.layers d.b).weights = none
  pshape : ∀ (k : Nat) (n : BNode T), Needed ns o (k + 1) → ns[k]? = some n →
    (layerParams w (d.b + 1 + k)).map Mat.shape = n.paramShapes (gshape ns shape)
  dst : ∀ q ∈ dsts d.ops, (d.lo ≤ q ∧ q < d.hi) ∨ d.own q
  par : ∀ p ∈ d.ps, ∀ m ∈ p, ∀ q ∈ m.ops, d.lo ≤ q ∧ q < d.hi ∧ q ∉ dsts d.ops
  keep : ∀ q c, d.K q c → d.lo ≤ q ∧ q < d.hi ∧ q ∉ dsts d.ops ∧ ∀ p ∈ d.ps, ∀ m ∈ p, q ∉ m.ops
  run : ∀ h h' x pv, d.hi ≤ h.next → (∀ q c, d.K q c → h.val q = c) → Holds h d.inM x →
    List.Forall₂ (List.Forall₂ (Holds h)) d.ps pv → exec d.ops h = .ok () h' → Holds h' d.outM (graphFn ns o pv x)
  fine : GraphSafe ns shape → ∀ op ∈ d.ops, Fine op
  hi : d.lo ≤ d.hi ∧ d.hi ≤ w.store.heap.next
  own : ∀ q, d.own q → q < d.lo ∧ q ∉ d.inM.ops
  inlt : ∀ q ∈ d.inM.ops, q < d.lo
  kept : ∀ q c, d.K q c → w.store.heap.val q = c
  ff : (w.nets m).ff = some d.ops
  input : (w.nets m).input = some d.inp
  output : (w.nets m).output = some d.out

theorem BrFF.needed {shape : List Nat} {ns : List (BNode T)} {b inp0 o : Nat} {m0 : Mat} {V : Nat → Prop} {ops : List (Op T)}
    {K : Ptr → T → Prop} {w0 w : World T} (A : BrFF shape ns b inp0 m0 V ops K w0 w) (ho : V o) {k : Nat} (h : Needed ns o k) : V k := by
  induction h with
  | out => exact ho
  | read _ hn hp ih => exact A.close _ ih _ (by simp only [greads, hn]; exact hp)

theorem BrFF.unused {shape : List Nat} {ns : List (BNode T)} {b inp0 : Nat} {m0 : Mat} {V : Nat → Prop} {ops : List (Op T)}
    {K : Ptr → T → Prop} {w0 w : World T} (S : GBase shape ns b inp0 m0 w0) (A : BrFF shape ns b inp0 m0 V ops K w0 w) {k : Nat}
    (hk : k ≤ ns.length) (hv : ¬ V k) : (w.layers (b + k)).weights = none ∧ (w.layers (b + k)).bias = none := by
  obtain ⟨f, e⟩ := A.rest k hk hv
  rw [e]
  cases k with
  | zero => exact S.wn
  | succ k =>
    obtain ⟨n, hn⟩ : ∃ n, ns[k]? = some n := ⟨_, List.getElem?_eq_getElem hk⟩
    exact (S.node hn).wn

/-- a model with branches is compiled after `Compile` -/
theorem GRun.compiled {shape : List Nat} {ns : List (BNode T)} {o m b inp0 : Nat} {m0 : Mat} {R V : Nat → Prop} {ops : List (Op T)} {out : Nat}
    {K : Ptr → T → Prop} {w w1 w2 w' : World T} (G : GRun shape ns o m b inp0 m0 R V ops out K w w1 w2 w') :
    BComp m shape ns o ⟨b, inp0, m0, ops, out, outMat w2 (b + o), (List.range ns.length).map fun k => layerParams w' (b + 1 + k), K,
      w1.store.heap.next, w2.store.heap.next, fun q => ∃ k ≤ ns.length, ownCell w1 (b + k) q⟩ w' := by
  obtain ⟨t, hnet⟩ := G.net
  have A := G.all
  have S := G.gat
  have x12 : Ext w1 w2 := A.grow.ext
  have x2' : Ext w2 w' := by
    have := G.fin.ext
    exact ⟨this.next, this.nodeNext, this.kind, this.frozen⟩
  have hnil : ∀ k ≤ ns.length, ¬ V k → layerParams w2 (b + k) = [] := fun k hk h => by
    unfold layerParams; rw [(A.unused S.toGBase hk h).1]
  have hready : ∀ k ≤ ns.length, ∀ n, ((w2.layers (b + k)).weights = some n ∨ (w2.layers (b + k)).bias = some n) →
      ∃ m, Ready w2 n m ∧ m.ops.Nodup := fun k hk n h => by
    by_cases hv : V k
    · exact A.pready k hv n h
    · obtain ⟨e1, e2⟩ := A.unused S.toGBase hk hv
      rw [e1, e2] at h; simp at h
  have hpar : ∀ k < ns.length, layerParams w' (b + 1 + k) = layerParams w2 (b + (k + 1)) := fun k hk => by
    rw [show b + 1 + k = b + (k + 1) by omega]
    exact layerParams_ext x2' (by rw [G.layers]) (by rw [G.layers]) (hready (k + 1) hk)
  have hps : ((List.range ns.length).map fun k => layerParams w' (b + 1 + k)) =
      (List.range ns.length).map fun k => layerParams w2 (b + (k + 1)) :=
    List.map_congr_left fun k hk => hpar k (List.mem_range.1 hk)
  have hmem : ∀ p ∈ ((List.range ns.length).map fun k => layerParams w' (b + 1 + k)), ∀ y ∈ p, ∃ k, V k ∧ y ∈ layerParams w2 (b + k) := by
    intro p hp y hy
    rw [hps] at hp
    obtain ⟨k, hk, rfl⟩ := List.mem_map.1 hp
    refine ⟨k + 1, ?_, hy⟩
    by_contra hv
    rw [hnil (k + 1) (List.mem_range.1 hk) hv] at hy
    cases hy
  obtain ⟨out', eo, ro⟩ := A.out o G.vo
  rw [G.outp] at eo
  cases eo
  refine ⟨lt_of_lt_of_le S.pos (x12.trans x2').next, S.rin.ext (x12.trans x2'), S.shape, S.nodup, ro.ext x2', rfl, ?_, ?_, ?_, ?_, ?_, ?_, ?_,
    A.fine, ⟨x12.next, x2'.next⟩, ?_, ?_, ?_, by rw [hnet], by rw [hnet], by rw [hnet]⟩
  · intro k hk n h
    rw [G.layers, show b + 1 + k = b + (k + 1) by omega] at h
    obtain ⟨a, ra, nd⟩ := hready (k + 1) hk n h
    exact ⟨a, ra.ext x2', nd⟩
  · rw [G.layers]; exact A.in0.2.1
  · intro k n hk hn
    rw [hpar k (List.getElem?_eq_some_iff.1 hn).1]
    exact A.pshape k n (A.needed G.vo hk) hn
  · intro q hq
    rcases A.dst q hq with h | ⟨j, hj, h⟩
    · exact Or.inl h
    · exact Or.inr ⟨j, A.sub j hj, h⟩
  · intro p hp y hy
    obtain ⟨k, hv, hk⟩ := hmem p hp y hy
    exact A.par k hv y hk
  · intro q c hK
    obtain ⟨h1, h2, h3, h4⟩ := A.keep q c hK
    refine ⟨h1, h2, h3, fun p hp y hy => ?_⟩
    obtain ⟨k, hv, hk⟩ := hmem p hp y hy
    exact h4 k hv y hk
  · intro h h' x pv hn hK H hp he
    simp only at hp
    rw [hps, List.forall₂_iff_get] at hp
    have hlen : pv.length = ns.length := by
      have := hp.1
      rw [List.length_map, List.length_range] at this
      exact this.symm
    refine A.run h h' x pv hn hK H hlen (fun k hv => ?_) he o G.vo
    cases k with
    | zero =>
      have : layerParams w2 (b + 0) = [] := by
        show layerParams w2 b = []
        unfold layerParams; rw [A.in0.2.1]
      rw [this]; exact .nil
    | succ k =>
      have hk : k < ns.length := A.sub _ hv
      have := hp.2 k (by simpa using hk) (by omega)
      simp only [List.get_eq_getElem, List.getElem_map, List.getElem_range] at this
      show List.Forall₂ _ _ (pv.getD k [])
      rw [List.getD_eq_getElem?_getD, List.getElem?_eq_getElem (by omega)]
      exact this
  · rintro q ⟨k, hk, hq⟩
    exact ⟨S.toGBase.own_lt hk hq, S.toGBase.own_in hk hq⟩
  · exact fun q hq => (S.rin.good.valid q hq).2
  · intro q c hk
    obtain ⟨_, k2, _⟩ := A.keep q c hk
    have := G.fin.val q k2 (fun h => h)
    show w'.store.heap.val q = c
    rw [show w'.store.heap.val q = w2.store.heap.val q from this]
    exact A.kept q c hk

/-- ... and keep it -/
theorem BComp.later {m : Nat} {shape : List Nat} {ns : List (BNode T)} {o : Nat} {d : CData T} {w : World T}
    (C : BComp m shape ns o d w) {w' : World T} (e : Ext w w')
    (hl : ∀ k ≤ ns.length, (w'.layers (d.b + k)).weights = (w.layers (d.b + k)).weights ∧
      (w'.layers (d.b + k)).bias = (w.layers (d.b + k)).bias)
    (hn : (w'.nets m).ff = (w.nets m).ff ∧ (w'.nets m).input = (w.nets m).input ∧ (w'.nets m).output = (w.nets m).output)
    (hk : ∀ q c, d.K q c → w'.store.heap.val q = c) : BComp m shape ns o d w' := by
  have hl' : ∀ k < ns.length, (w'.layers (d.b + 1 + k)).weights = (w.layers (d.b + 1 + k)).weights ∧
      (w'.layers (d.b + 1 + k)).bias = (w.layers (d.b + 1 + k)).bias := fun k hk => by
    rw [show d.b + 1 + k = d.b + (k + 1) by omega]; exact hl (k + 1) hk
  have hp : ∀ k < ns.length, layerParams w' (d.b + 1 + k) = layerParams w (d.b + 1 + k) := fun k hk =>
    layerParams_ext e (hl' k hk).1 (hl' k hk).2 (C.pready k hk)
  refine ⟨lt_of_lt_of_le C.pos e.next, C.rin.ext e, C.ishape, C.nodup, C.rout.ext e, ?_, fun k hk n h => ?_, ?_, fun k n h1 h2 => ?_,
    C.dst, C.par, C.keep, C.run, C.fine, ⟨C.hi.1, le_trans C.hi.2 e.next⟩, C.own, C.inlt, hk, hn.1.trans C.ff, hn.2.1.trans C.input,
    hn.2.2.trans C.output⟩
  · rw [C.ps]; exact List.map_congr_left fun k hk => (hp k (List.mem_range.1 hk)).symm
  · rw [(hl' k hk).1, (hl' k hk).2] at h
    obtain ⟨a, ra, nd⟩ := C.pready k hk n h
    exact ⟨a, ra.ext e, nd⟩
  · have := (hl 0 (Nat.zero_le _)).1
    rw [Nat.add_zero] at this
    rw [this]; exact C.wn
  · rw [hp k (List.getElem?_eq_some_iff.1 h2).1]; exact C.pshape k n h1 h2

/-- what `Predict` has done -/
structure BPred (m : Nat) (shape : List Nat) (ns : List (BNode T)) (o : Nat) (d : CData T) (x : STensor T) (r : Nat) (w w' : World T) : Prop where
  comp : BComp m shape ns o d w'
  ext : Ext w w'
  layers : w'.layers = w.layers
  nets : w'.nets = w.nets
  counts : w'.layerNext = w.layerNext ∧ w'.netNext = w.netNext
  nodes : (∀ k, k ≠ w.nodeNext → w'.store.nodes k = w.store.nodes k) ∧ w'.nodeNext = w.nodeNext + 1
  fresh : r = w.nodeNext ∧ ∃ rM, Ready w' r rM ∧ (∀ q ∈ rM.ops, w.store.heap.next ≤ q) ∧
    ∀ pv, List.Forall₂ (List.Forall₂ (Holds w.store.heap)) d.ps pv → Holds w'.store.heap rM (graphFn ns o pv x)
  val : ∀ q, q < w.store.heap.next → q ∉ d.inM.ops → q ∉ dsts d.ops → w'.store.heap.val q = w.store.heap.val q

theorem predict_graph {m : Nat} {shape : List Nat} {ns : List (BNode T)} {o : Nat} {d : CData T} {w : World T}
    (C : BComp m shape ns o d w) {t : Nat} {x : STensor T} (hx : Holds w.store.heap (w.store.nodes t).mat x)
    (hs : x.shape = shape) (hal : ∀ q ∈ (w.store.nodes t).mat.ops, q ∉ d.inM.ops) :
    wp (GraphSafe ns shape) (NetM.predict m t) (fun r w' => BPred m shape ns o d x r w w') w := by
  unfold NetM.predict
  refine wp_bind (wp_net ?_)
  rw [C.ff]
  refine wp_bind (wp_net ?_)
  refine wp_bind (wp_deref C.input ?_)
  obtain ⟨h1, e1, H1, n1, v1⟩ := loadFrom_ok C.rin C.nodup hx (by rw [hs, C.ishape]) hal
  refine wp_bind (wp_of_ok e1 ?_)
  set w1 : World T := { w with store := { w.store with heap := h1 } } with hw1
  refine wp_bind (wp_run C.ff (fun hsafe => exec_fine _ _ (C.fine hsafe)) fun h2 e2 => ?_)
  have e2' : exec d.ops h1 = .ok () h2 := e2
  obtain ⟨n2, v2⟩ := exec_frame e2'
  set w2 : World T := { w1 with store := { w1.store with heap := h2 } } with hw2
  have x02 : Ext w w2 := ext_of_eq (by show w.store.heap.next ≤ h2.next; omega) rfl rfl
  refine wp_bind (wp_deref C.output ?_)
  refine wp_copyTensor (L := fun _ => False) (C := fun _ => False) (C.rout.ext x02)
    (lt_of_lt_of_le C.pos x02.next) fun w3 c g3 l3 x3 r3 nd3 f3 h3 s3 o3 => ?_
  have x03 : Ext w w3 := x02.trans g3.ext
  have hnin : ∀ q, d.lo ≤ q → q ∉ d.inM.ops := fun q hq hm => by have := C.inlt q hm; omega
  have hval : ∀ q, q < w.store.heap.next → q ∉ d.inM.ops → q ∉ dsts d.ops → w3.store.heap.val q = w.store.heap.val q := by
    intro q hq hq1 hq2
    rw [g3.val q (by show q < h2.next; omega) (fun h => h)]
    show h2.val q = _
    rw [v2 q hq2, v1 q hq1]
  have hrun : ∀ pv, List.Forall₂ (List.Forall₂ (Holds w.store.heap)) d.ps pv → Holds h2 d.outM (graphFn ns o pv x) := by
    intro pv hpv
    refine C.run h1 h2 x pv (by rw [n1]; exact C.hi.2) ?_ H1 ?_ e2'
    · intro q k hk
      rw [v1 q (hnin q (C.keep q k hk).1)]
      exact C.kept q k hk
    · exact forall₂_kept (by omega) (fun p hp a ha q hq => v1 q (hnin q (C.par p hp a ha q hq).1)) hpv
  refine ⟨C.later x03 (fun k _ => ?_) ?_ ?_, x03, ?_, ?_, ⟨g3.layerNext, g3.netNext⟩, ⟨o3, x3⟩, ⟨rfl, c, r3, ?_, ?_⟩, hval⟩
  · rw [l3]; exact ⟨rfl, rfl⟩
  · rw [g3.nets]; exact ⟨rfl, rfl, rfl⟩
  · intro q k hk
    obtain ⟨k1, k2, k3, _⟩ := C.keep q k hk
    rw [hval q (lt_of_lt_of_le k2 C.hi.2) (hnin q k1) k3]
    exact C.kept q k hk
  · rw [l3]
  · rw [g3.nets]
  · intro q hq
    exact le_trans x02.next (f3 q hq)
  · exact fun pv hpv => h3 _ (hrun pv hpv)

/-- inputs of the right shape are not rejected -/
theorem predict_graph_noerr {m : Nat} {shape : List Nat} {ns : List (BNode T)} {o : Nat} {d : CData T} {w : World T}
    (C : BComp m shape ns o d w) {t : Nat} {x : STensor T} (hx : Holds w.store.heap (w.store.nodes t).mat x)
    (hs : x.shape = shape) (hal : ∀ q ∈ (w.store.nodes t).mat.ops, q ∉ d.inM.ops) (e : Err) (w' : World T) :
    NetM.predict m t w ≠ .err e w' := by
  obtain ⟨h1, e1, H1, n1, v1⟩ := loadFrom_ok C.rin C.nodup hx (by rw [hs, C.ishape]) hal
  intro he
  obtain ⟨w1, hw1⟩ : ∃ x : World T, x = { w with store := { w.store with heap := h1 } } := ⟨_, rfl⟩
  rw [← hw1] at e1
  have hh : w1.store.heap = h1 := by rw [hw1]
  have x1 : Ext w w1 := by rw [hw1]; exact ext_of_eq (le_of_eq n1.symm) rfl rfl
  have e2 : NetM.predict m t w = (NetM.run (some d.ops) w1).bind fun _ => (do
      let o ← Run.deref (w.nets m).output
      NetM.copyTensor o : Run T Nat) := by
    show (match (w.nets m).ff with
      | none => _
      | some _ => _ : Run T Nat) w = _
    rw [C.ff]
    show (Run.deref (w.nets m).input w).bind _ = _
    rw [C.input]
    show (LayerM.loadFrom d.inp t w).bind _ = _
    rw [e1]
    show (NetM.run (w.nets m).ff w1).bind _ = _
    rw [C.ff]
  have e3 : NetM.run (some d.ops) w1 = match exec d.ops h1 with
      | .ok a h => .ok a { w1 with store := { w1.store with heap := h } }
      | .err e h => .err e { w1 with store := { w1.store with heap := h } }
      | .panic => .panic := by
    rw [← hh]
    show Run.heap (exec d.ops) w1 = _
    unfold Run.heap
    cases exec d.ops w1.store.heap <;> rfl
  rw [e2, e3] at he
  cases hx : exec d.ops h1 with
  | err e' h' => exact exec_noerr _ _ hx
  | panic => rw [hx] at he; cases he
  | ok u h2 =>
    rw [hx] at he
    obtain ⟨w2, hw2⟩ : ∃ x : World T, x = { w1 with store := { w1.store with heap := h2 } } := ⟨_, rfl⟩
    have he' : (Run.deref (w.nets m).output w2).bind (fun o => NetM.copyTensor o) = .err e w' := by rw [hw2]; exact he
    rw [C.output] at he'
    have x2 : Ext w w2 := x1.trans (by rw [hw2]; exact ext_of_eq (by rw [(exec_frame hx).1, hh]) rfl rfl)
    obtain ⟨r, w3, e4, _⟩ := wp_total (wp_copyTensor (tot := True) (L := fun _ => False) (C := fun _ => False) (w := w2) (Q := fun _ _ => True)
      (C.rout.ext x2) (lt_of_lt_of_le C.pos x2.next) fun _ _ _ _ _ _ _ _ _ _ _ => trivial)
    have he'' : NetM.copyTensor d.out w2 = .err e w' := he'
    rw [e4] at he''
    cases he''

/-- inputs of another shape are rejected and nothing changes -/
theorem predict_graph_shape {m : Nat} {shape : List Nat} {ns : List (BNode T)} {o : Nat} {d : CData T} {w : World T}
    (C : BComp m shape ns o d w) {t : Nat} (hs : (w.store.nodes t).mat.shape ≠ shape) :
    ∃ e, NetM.predict m t w = .err e w := by
  obtain ⟨e, he⟩ := Props.C08_loadFromTensor_error (T := T) d.inM (w.store.nodes t).mat w.store.heap (by
    rw [C.ishape]; exact fun h => hs h.symm)
  refine ⟨e, ?_⟩
  show (match (w.nets m).ff with
    | none => _
    | some _ => _ : Run T Nat) w = _
  rw [C.ff]
  show (Run.deref (w.nets m).input w).bind _ = _
  rw [C.input]
  show (Run.heap ((w.store.nodes d.inp).mat.loadFromTensor (w.store.nodes t).mat) w).bind _ = _
  rw [C.rin.mat]
  simp only [Run.heap, he]
  rfl

/-- `Compile` touches nothing but the model and its layers -/
theorem GRun.apart {shape : List Nat} {ns : List (BNode T)} {o m b inp0 : Nat} {m0 : Mat} {R V : Nat → Prop} {ops : List (Op T)} {out : Nat}
    {K : Ptr → T → Prop} {w w1 w2 w' : World T} (G : GRun shape ns o m b inp0 m0 R V ops out K w w1 w2 w') :
    Ext w w1 ∧ Ext w w' ∧ (∀ q, q < w.store.heap.next → w'.store.heap.val q = w.store.heap.val q) ∧ w'.layerNext = w.layerNext ∧
      (∀ l, ∃ bb r i, w1.layers l = { w.layers l with build := bb, ref := r, index := i }) := by
  obtain ⟨wb, rb, e1⟩ := G.refs
  have A := G.all
  have x01 : Ext w w1 := by rw [e1]; exact rb.grow.ext.trans (ext_clr wb)
  have x12 : Ext w1 w2 := A.grow.ext
  have x2' : Ext w2 w' := by
    have := G.fin.ext
    exact ⟨this.next, this.nodeNext, this.kind, this.frozen⟩
  refine ⟨x01, x01.trans (x12.trans x2'), fun q hq => ?_, ?_, ?_⟩
  · rw [show w'.store.heap.val q = w2.store.heap.val q from
      G.fin.val q (lt_of_lt_of_le hq (x01.trans x12).next) (fun h => h)]
    rw [A.grow.val q (lt_of_lt_of_le hq x01.next) ?_]
    · rw [e1]; exact rb.grow.val q hq (fun h => h)
    · rintro ⟨k, hk, e⟩
      have := G.refval k (A.sub k hk) (G.vr k hk)
      omega
  · rw [show w'.layerNext = w2.layerNext from G.fin.layerNext, A.grow.layerNext, e1]; exact rb.grow.layerNext
  · rw [e1]; exact rb.same

/-- a compiled model with branches, and what it was compiled from -/
structure BMade (w0 w1 : World T) (m : Nat) (shape : List Nat) (ns : List (BNode T)) (o : Nat) (d : CData T) : Prop where
  apart : Unchanged w0 w1
  comp : BComp m shape ns o d w1
  base : d.b = w0.layerNext
  next : w1.layerNext = w0.layerNext + ns.length + 1
  low : ∀ q ∈ d.inM.ops, w0.store.heap.next ≤ q
  lo : w0.store.heap.next ≤ d.lo
  own : ∀ q, d.own q → w0.store.heap.next ≤ q

theorem branched_compiled (hg : ∀ s : LSpec T, FFGood s) {shape : List Nat} {ns : List (BNode T)} {o : Nat} {w0 : World T}
    (hlaw : ∀ c, 0 < c → c ≤ 2 * ns.length + 3 → eq (counted c) (zero : T) = false)
    (hpos : 0 < w0.store.heap.next) (hfit : GraphFits ns shape) (ho : o ≤ ns.length) :
    wp True (branchedCompiled shape ns o) (fun r w1 => r.2 = gids w0.layerNext ns.length ∧ ∃ d, BMade w0 w1 r.1 shape ns o d) w0 := by
  unfold branchedCompiled
  refine wp_bind (wp_mono (branched_ok shape ns o hpos (fun k n h => (hfit k n h).1) ho) ?_)
  rintro _ ws ⟨rfl, A, ⟨inp0, m0, S, low, own⟩, hnet, _⟩
  refine wp_bind (wp_mono (compile_graph (o := o) hlaw S (by rw [hnet]; exact ⟨rfl, rfl⟩) hg hfit ho) ?_)
  rintro _ w1 ⟨R, V, ops, out, K, wa, wb, G⟩
  obtain ⟨x1, x2, x3, x4, x5⟩ := G.apart
  refine wp_pure ⟨rfl, _, ⟨A.ext.trans x2, fun q hq => ?_⟩, G.compiled, rfl, ?_, low, ?_, ?_⟩
  · rw [x3 q (lt_of_lt_of_le hq A.ext.next), A.val q hq]
  · rw [x4, S.next]
  · exact le_trans A.ext.next x1.next
  · rintro q ⟨k, hk, hq⟩
    cases k with
    | zero => exact absurd hq (G.gat.toGBase.own_zero q)
    | succ k =>
      rw [show w0.layerNext + (k + 1) = w0.layerNext + 1 + k by omega] at hq
      obtain ⟨bb, r, i, e⟩ := x5 (w0.layerNext + 1 + k)
      exact own k hk q (((S.toGBase.at hk).own_ext x1 (by rw [e]) (by rw [e]) q).1 hq)

theorem BMade.inside_in {w0 w1 : World T} {m : Nat} {shape : List Nat} {ns : List (BNode T)} {o : Nat} {d : CData T}
    (M : BMade w0 w1 m shape ns o d) {q : Ptr} (hq : q ∈ d.inM.ops) : ¬ Outside w0 w1 q := by
  rintro (h | h)
  · have := M.low q hq; omega
  · have := (M.comp.rin.good.valid q hq).2; omega

theorem BMade.inside {w0 w1 : World T} {m : Nat} {shape : List Nat} {ns : List (BNode T)} {o : Nat} {d : CData T}
    (M : BMade w0 w1 m shape ns o d) {q : Ptr} (h1 : d.lo ≤ q) (h2 : q < d.hi) : ¬ Outside w0 w1 q := by
  have h3 := M.comp.hi
  have h4 := M.lo
  rintro (h | h) <;> omega

theorem BMade.inside_dst {w0 w1 : World T} {m : Nat} {shape : List Nat} {ns : List (BNode T)} {o : Nat} {d : CData T}
    (M : BMade w0 w1 m shape ns o d) {q : Ptr} (hq : q ∈ dsts d.ops) : ¬ Outside w0 w1 q := by
  rcases M.comp.dst q hq with h | h
  · exact M.inside h.1 h.2
  · have h1 := M.own q h
    have h2 := (M.comp.own q h).1
    have h3 := M.comp.hi
    rintro (h | h) <;> omega

/-- a state after any number of steps -/
structure BLive (w0 w1 : World T) (m : Nat) (d : CData T) (a : World T) : Prop where
  ext : Ext w1 a
  layers : ∀ l, w0.layerNext ≤ l → l < w1.layerNext → a.layers l = w1.layers l
  nets : a.nets m = w1.nets m
  kept : ∀ q c, d.K q c → a.store.heap.val q = c
  next : w1.layerNext ≤ a.layerNext

theorem BLive.comp {w0 w1 : World T} {m : Nat} {shape : List Nat} {ns : List (BNode T)} {o : Nat} {d : CData T} {a : World T}
    (L : BLive w0 w1 m d a) (M : BMade w0 w1 m shape ns o d) : BComp m shape ns o d a := by
  refine M.comp.later L.ext (fun k hk => ?_) (by rw [L.nets]; exact ⟨rfl, rfl, rfl⟩) L.kept
  rw [L.layers (d.b + k) (by rw [M.base]; omega) (by rw [M.base, M.next]; omega)]
  exact ⟨rfl, rfl⟩

theorem BLive.pred {w0 w1 : World T} {m : Nat} {shape : List Nat} {ns : List (BNode T)} {o : Nat} {d : CData T} {a b : World T}
    {x : STensor T} {r : Nat} (L : BLive w0 w1 m d a) (P : BPred m shape ns o d x r a b) : BLive w0 w1 m d b :=
  ⟨L.ext.trans P.ext, fun l h1 h2 => by rw [P.layers]; exact L.layers l h1 h2, by rw [P.nets]; exact L.nets, P.comp.kept,
    by rw [P.counts.1]; exact L.next⟩

/-- the weights and biases of the layers -/
theorem BLive.have {w0 w1 : World T} {m : Nat} {shape : List Nat} {ns : List (BNode T)} {o : Nat} {d : CData T} {a : World T}
    (M : BMade w0 w1 m shape ns o d) (L : BLive w0 w1 m d a) :
    (gids w0.layerNext ns.length).tail.map (layerParams a) = d.ps := by
  rw [(L.comp M).ps, M.base]
  unfold gids
  rw [List.range_succ_eq_map, List.map_cons, List.tail_cons, List.map_map, List.map_map]
  refine List.map_congr_left fun k _ => ?_
  show layerParams a (w0.layerNext + (k + 1)) = _
  rw [show w0.layerNext + (k + 1) = w0.layerNext + 1 + k by omega]

theorem BLive.mem {w0 w1 : World T} {m : Nat} {shape : List Nat} {ns : List (BNode T)} {o : Nat} {d : CData T} {a : World T}
    (M : BMade w0 w1 m shape ns o d) (L : BLive w0 w1 m d a) {l : Nat} (hl : l ∈ gids w0.layerNext ns.length) {x : Mat}
    (hx : x ∈ layerParams a l) : ∃ p ∈ d.ps, x ∈ p := by
  obtain ⟨k, hk, rfl⟩ := List.mem_map.1 hl
  rw [← M.base] at hx
  cases k with
  | zero =>
    have : layerParams a d.b = [] := by unfold layerParams; rw [(L.comp M).wn]
    rw [Nat.add_zero, this] at hx
    cases hx
  | succ k =>
    have := List.mem_range.1 hk
    rw [show d.b + (k + 1) = d.b + 1 + k by omega] at hx
    exact ⟨_, by rw [(L.comp M).ps]; exact List.mem_map.2 ⟨k, List.mem_range.2 (by omega), rfl⟩, hx⟩

theorem blive_step {w0 w1 : World T} {m : Nat} {shape : List Nat} {ns : List (BNode T)} {o : Nat} {d : CData T} {a b : World T}
    (M : BMade w0 w1 m shape ns o d) (L : BLive w0 w1 m d a) (s : BStep w0 w1 m (gids w0.layerNext ns.length) a b) : BLive w0 w1 m d b := by
  have C := L.comp M
  cases s with
  | predict hu he =>
    next t x =>
    by_cases hs : x.shape = shape
    · have := predict_graph C hu.2.1 hs fun q hq hq' => M.inside_in hq' (hu.2.2 q hq)
      rcases he with ⟨r, he⟩ | ⟨e, he⟩
      · exact L.pred (show BPred m shape ns o d x r a b by rw [wp, he] at this; exact this)
      · exact absurd he (predict_graph_noerr C hu.2.1 hs (fun q hq hq' => M.inside_in hq' (hu.2.2 q hq)) e b)
    · obtain ⟨e, he'⟩ := predict_graph_shape C (t := t) (by rw [hu.2.1.shape]; exact hs)
      rw [he'] at he
      rcases he with ⟨r, he⟩ | ⟨e, he⟩
      · cases he
      · cases he; exact L
  | weights hn hv =>
    next h =>
    refine ⟨L.ext.trans (ext_of_eq (le_of_eq hn.symm) rfl rfl), L.layers, L.nets, fun q c hk => ?_, L.next⟩
    show h.val q = c
    rw [← L.kept q c hk]
    by_contra hne
    obtain ⟨l, hl, x, hx, hq⟩ := hv q hne
    obtain ⟨p, hp, hxp⟩ := L.mem M hl hx
    exact (C.keep q c hk).2.2.2 p hp x hxp hq
  | elsewhere h1 h2 h0 h3 h4 h5 h6 h7 =>
    refine ⟨⟨le_trans L.ext.next h1, le_trans L.ext.nodeNext h2, fun n hn => ?_, fun n hn hf => ?_⟩, fun l hl1 hl2 => ?_, ?_, ?_, le_trans L.next h0⟩
    · rw [h3 n hn, L.ext.kind n hn]
    · obtain ⟨y1, y2⟩ := L.ext.frozen n hn hf
      obtain ⟨z1, z2⟩ := h4 n hn y1
      exact ⟨z1, by rw [z2, y2]⟩
    · rw [h5 l hl1 hl2, L.layers l hl1 hl2]
    · rw [h6, L.nets]
    · intro q c hk
      obtain ⟨k1, k2, _⟩ := C.keep q c hk
      rw [h7 q (M.inside k1 k2), L.kept q c hk]

theorem blive_steps {w0 w1 : World T} {m : Nat} {shape : List Nat} {ns : List (BNode T)} {o : Nat} {d : CData T} {a : World T}
    (M : BMade w0 w1 m shape ns o d) (s : BSteps w0 w1 m (gids w0.layerNext ns.length) w1 a) : BLive w0 w1 m d a := by
  have h0 : BLive w0 w1 m d w1 := ⟨Ext.refl _, fun _ _ _ => rfl, rfl, M.comp.kept, le_refl _⟩
  generalize hw : w1 = w at s h0
  revert h0
  induction s with
  | none => subst hw; exact fun h => h
  | more _ h2 ih => subst hw; exact fun h0 => blive_step M (ih h0) h2

theorem BPred.user {w0 w1 : World T} {m : Nat} {shape : List Nat} {ns : List (BNode T)} {o : Nat} {d : CData T} {a b : World T}
    {x : STensor T} {r : Nat} (M : BMade w0 w1 m shape ns o d) (P : BPred m shape ns o d x r a b) {n : Nat} {y : STensor T}
    (hu : UserTensor w0 w1 a n y) : UserTensor w0 w1 b n y := by
  have e := P.nodes.1 n (by have := hu.1; omega)
  refine ⟨by have := hu.1; rw [P.nodes.2]; omega, ?_, by rw [e]; exact hu.2.2⟩
  rw [e]
  refine hu.2.1.kept P.ext.next fun q hq => P.val q (hu.2.1.valid q hq).2 ?_ ?_
  · exact fun h => M.inside_in h (hu.2.2 q hq)
  · exact fun h => M.inside_dst h (hu.2.2 q hq)

theorem BPred.params {w0 w1 : World T} {m : Nat} {shape : List Nat} {ns : List (BNode T)} {o : Nat} {d : CData T} {a b : World T}
    {x : STensor T} {r : Nat} (M : BMade w0 w1 m shape ns o d) (L : BLive w0 w1 m d a) (P : BPred m shape ns o d x r a b)
    {pv : List (List (STensor T))} (h : LayersHave a (gids w0.layerNext ns.length) pv) : LayersHave b (gids w0.layerNext ns.length) pv := by
  unfold LayersHave at h ⊢
  rw [L.have M] at h
  rw [(L.pred P).have M]
  have C := L.comp M
  refine forall₂_kept P.ext.next (fun p hp y hy q hq => ?_) h
  obtain ⟨h1, h2, h3⟩ := C.par p hp y hy q hq
  exact P.val q (lt_of_lt_of_le h2 C.hi.2) (fun hm => by have := C.inlt q hm; omega) h3

theorem BPred.result {w0 w1 : World T} {m : Nat} {shape : List Nat} {ns : List (BNode T)} {o : Nat} {d : CData T} {a b : World T}
    {x : STensor T} {r : Nat} (M : BMade w0 w1 m shape ns o d) (L : BLive w0 w1 m d a) (P : BPred m shape ns o d x r a b)
    {pv : List (List (STensor T))} (h : LayersHave a (gids w0.layerNext ns.length) pv) : UserTensor w0 w1 b r (graphFn ns o pv x) := by
  unfold LayersHave at h
  rw [L.have M] at h
  obtain ⟨rfl, rM, h1, h3, h5⟩ := P.fresh
  refine ⟨h1.lt, by rw [h1.mat]; exact h5 pv h, fun q hq => ?_⟩
  rw [h1.mat] at hq
  exact Or.inr (le_trans L.ext.next (h3 q hq))

/-- the layers have weights and biases, of the right shapes if they are used -/
theorem BLive.someParams {w0 w1 : World T} {m : Nat} {shape : List Nat} {ns : List (BNode T)} {o : Nat} {d : CData T} {a : World T}
    (M : BMade w0 w1 m shape ns o d) (L : BLive w0 w1 m d a) :
    ∃ pv, LayersHave a (gids w0.layerNext ns.length) pv ∧ pv.length = ns.length ∧ ∀ (k : Nat) (n : BNode T), ns[k]? = some n →
      Needed ns o (k + 1) → (pv.getD k []).map STensor.shape = n.paramShapes fun i => (graphShapes ns shape).getD i [] := by
  have C := L.comp M
  refine ⟨d.ps.map fun p => p.map (ofMat a.store.heap.val), ?_, by rw [C.ps]; simp, fun k n hs hk' => ?_⟩
  · unfold LayersHave
    rw [L.have M]
    rw [List.forall₂_map_right_iff, List.forall₂_same]
    intro p hp
    rw [List.forall₂_map_right_iff, List.forall₂_same]
    intro y hy
    refine good_holds ?_
    rw [C.ps] at hp
    obtain ⟨k, hk, rfl⟩ := List.mem_map.1 hp
    have hr := C.pready k (List.mem_range.1 hk)
    unfold layerParams at hy
    split at hy
    · next n1 n2 e1 e2 =>
      simp only [List.mem_cons, List.not_mem_nil, or_false] at hy
      rcases hy with rfl | rfl
      · obtain ⟨y, ry, _⟩ := hr n1 (Or.inl e1)
        rw [ry.mat]; exact ry.good
      · obtain ⟨y, ry, _⟩ := hr n2 (Or.inr e2)
        rw [ry.mat]; exact ry.good
    · simp at hy
  · have hk := (List.getElem?_eq_some_iff.1 hs).1
    rw [show (fun i => (graphShapes ns shape).getD i []) = gshape ns shape from rfl, ← C.pshape k n hk' hs]
    simp only [C.ps, List.map_map, List.getD_eq_getElem?_getD, List.getElem?_map, List.getElem?_range hk, Option.map_some,
      Option.getD_some, Function.comp_apply]
    rfl

end Godeep
