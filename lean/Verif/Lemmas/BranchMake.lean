import Verif.Lemmas.Compile
import Verif.Spec.Branched
/-
  Making a model whose layers form a graph.
-/
set_option linter.unusedSectionVars false

namespace Godeep
open Spec GoNum

variable {T : Type} [GoNum T]

/-- the kind of layer node `n` is, when layer number 0 is layer `b` -/
def _root_.Godeep.Spec.BNode.kind (b : Nat) : BNode T → LKind T
  | .layer s _ => s.kind
  | .concat i j d => .concat (b + i) (b + j) d

/-- the layer it is connected to -/
def _root_.Godeep.Spec.BNode.pre (b : Nat) : BNode T → Option Nat
  | .layer _ p => some (b + p)
  | .concat _ _ _ => none

/-- its activation -/
def _root_.Godeep.Spec.BNode.act : BNode T → Activation T
  | .layer s _ => s.act
  | .concat _ _ _ => .linear

/-- its own output tensor -/
def _root_.Godeep.Spec.BNode.own (w : World T) (l : Nat) : BNode T → Prop
  | .layer s _ => OwnOK s w l
  | .concat _ _ _ => True

/-- layer `l` as made for node `n` -/
structure NodeAt (b : Nat) (n : BNode T) (w : World T) (l : Nat) : Prop where
  kind : (w.layers l).kind = n.kind b
  act : (w.layers l).act = n.act
  pre : (w.layers l).pre = n.pre b
  ff : (w.layers l).ff = false
  own : n.own w l
  wn : (w.layers l).weights = none ∧ (w.layers l).bias = none

theorem NodeAt.mat {b : Nat} {n : BNode T} {w : World T} {l : Nat} (h : NodeAt b n w l)
    {o : Nat} (hd : (w.layers l).kind = .dense) (ho : (w.layers l).output = some o) : ∃ m, Ready w o m := by
  cases n with
  | layer s p => exact OwnOK.mat h.own h.kind hd ho
  | concat i j d => rw [h.kind] at hd; cases hd

theorem NodeAt.ext {b : Nat} {n : BNode T} {w w' : World T} {l : Nat} (h : NodeAt b n w l) (g : Ext w w')
    (e : ∃ bb r i f, w'.layers l = { w.layers l with build := bb, ref := r, index := i, ff := f } ∧ (f = false)) : NodeAt b n w' l := by
  obtain ⟨bb, r, i, f, e, hf⟩ := e
  refine ⟨by rw [e]; exact h.kind, by rw [e]; exact h.act, by rw [e]; exact h.pre, by rw [e]; exact hf, ?_,
    by rw [e]; exact h.wn⟩
  have := h.own
  cases n with
  | layer s p =>
    cases s with
    | dense n a =>
      obtain ⟨o', m, h1, h2, h3⟩ := this
      exact ⟨o', m, by rw [e]; exact h1, h2.ext g, h3⟩
    | _ => trivial
  | concat i j d => trivial

theorem NodeAt.own_ext {b : Nat} {n : BNode T} {w w' : World T} {l : Nat} (h : NodeAt b n w l) (g : Ext w w')
    (e1 : (w'.layers l).kind = (w.layers l).kind) (e2 : (w'.layers l).output = (w.layers l).output) (q : Ptr) :
    ownCell w' l q ↔ ownCell w l q := by
  refine ownCell_congr e1 e2 (fun o hk ho => ?_) q
  obtain ⟨m, hm⟩ := h.mat hk ho
  rw [(hm.ext g).mat, hm.mat]

theorem NodeAt.own_lt {b : Nat} {n : BNode T} {w : World T} {l : Nat} (h : NodeAt b n w l) {q : Ptr} (hq : ownCell w l q) :
    q < w.store.heap.next := by
  unfold ownCell at hq
  split at hq
  · next k o hk ho =>
    obtain ⟨m, hm⟩ := h.mat hk ho
    rw [hm.mat] at hq
    exact (hm.good.valid q hq).2
  · exact hq.elim

/-- the layers `b`, `b + 1`, ... are a graph starting with an input layer -/
structure GBase (shape : List Nat) (ns : List (BNode T)) (b inp0 : Nat) (m0 : Mat) (w : World T) : Prop where
  pos : 0 < w.store.heap.next
  kind : (w.layers b).kind = .input
  pre : (w.layers b).pre = none
  ff : (w.layers b).ff = false
  input : (w.layers b).input = some inp0
  rin : Ready w inp0 m0
  shape : m0.shape = shape
  nodup : m0.ops.Nodup
  wn : (w.layers b).weights = none ∧ (w.layers b).bias = none
  lay : ∀ k n, ns[k]? = some n → NodeAt b n w (b + 1 + k)
  dis : ∀ k, k < ns.length → ∀ q, ownCell w (b + 1 + k) q → q ∉ m0.ops ∧
    ∀ k', k' < k → ¬ ownCell w (b + 1 + k') q

theorem GBase.at {shape : List Nat} {ns : List (BNode T)} {b inp0 : Nat} {m0 : Mat} {w : World T}
    (S : GBase shape ns b inp0 m0 w) {k : Nat} (hk : k < ns.length) : NodeAt b ns[k] w (b + 1 + k) :=
  S.lay k _ (by simp [hk])

theorem GBase.ext {shape : List Nat} {ns : List (BNode T)} {b inp0 : Nat} {m0 : Mat} {w w' : World T}
    (S : GBase shape ns b inp0 m0 w) (g : Ext w w') (hl : ∀ k ≤ ns.length, ∃ bb r i,
      w'.layers (b + k) = { w.layers (b + k) with build := bb, ref := r, index := i }) :
    GBase shape ns b inp0 m0 w' := by
  obtain ⟨b1, r1, i1, e⟩ := hl 0 (Nat.zero_le _)
  simp only [Nat.add_zero] at e
  have hl' : ∀ k, k < ns.length → ∃ bb r i,
      w'.layers (b + 1 + k) = { w.layers (b + 1 + k) with build := bb, ref := r, index := i } := fun k hk => by
    have := hl (k + 1) hk
    rw [show b + (k + 1) = b + 1 + k by omega] at this
    exact this
  have hown : ∀ k, k < ns.length → ∀ q, ownCell w' (b + 1 + k) q ↔ ownCell w (b + 1 + k) q := fun k hk q => by
    obtain ⟨b2, r2, i2, e2⟩ := hl' k hk
    exact (S.at hk).own_ext g (by rw [e2]) (by rw [e2]) q
  refine ⟨lt_of_lt_of_le S.pos g.next, by rw [e]; exact S.kind, by rw [e]; exact S.pre, by rw [e]; exact S.ff,
    by rw [e]; exact S.input, S.rin.ext g, S.shape, S.nodup, by rw [e]; exact S.wn, ?_, ?_⟩
  · intro k s hs
    obtain ⟨b2, r2, i2, e2⟩ := hl' k (List.getElem?_eq_some_iff.1 hs).1
    exact (S.lay k s hs).ext g ⟨b2, r2, i2, _, e2, (S.lay k s hs).ff⟩
  · intro k hk q hq
    obtain ⟨h1, h2⟩ := S.dis k hk q ((hown k hk q).1 hq)
    exact ⟨h1, fun k' hk' hq' => h2 k' hk' ((hown k' (by omega) q).1 hq')⟩

theorem GBase.snoc {shape : List Nat} {ns : List (BNode T)} {n : BNode T} {b inp0 : Nat} {m0 : Mat} {w w' : World T}
    (S : GBase shape ns b inp0 m0 w) (g : Ext w w') (hl : ∀ k ≤ ns.length, w'.layers (b + k) = w.layers (b + k))
    (hs : NodeAt b n w' (b + 1 + ns.length))
    (hnew : ∀ q, ownCell w' (b + 1 + ns.length) q → w.store.heap.next ≤ q) :
    GBase shape (ns ++ [n]) b inp0 m0 w' := by
  have S' := S.ext g fun k hk => ⟨_, _, _, hl k hk⟩
  have hl' : ∀ k, k < ns.length → w'.layers (b + 1 + k) = w.layers (b + 1 + k) := fun k hk => by
    have := hl (k + 1) hk
    rw [show b + (k + 1) = b + 1 + k by omega] at this
    exact this
  have hown : ∀ k, k < ns.length → ∀ q, ownCell w' (b + 1 + k) q ↔ ownCell w (b + 1 + k) q := fun k hk q =>
    (S.at hk).own_ext g (by rw [hl' k hk]) (by rw [hl' k hk]) q
  refine ⟨S'.pos, S'.kind, S'.pre, S'.ff, S'.input, S'.rin, S'.shape, S'.nodup, S'.wn, ?_, ?_⟩
  · intro k s' h
    have hk := (List.getElem?_eq_some_iff.1 h).1
    rw [List.length_append, List.length_singleton] at hk
    rcases Nat.lt_or_ge k ns.length with h1 | h1
    · rw [List.getElem?_append_left h1] at h
      exact S'.lay k s' h
    · have : k = ns.length := by omega
      subst this
      simp at h
      rw [← h]; exact hs
  · intro k hk q hq
    rw [List.length_append, List.length_singleton] at hk
    rcases Nat.lt_or_ge k ns.length with h1 | h1
    · exact S'.dis k h1 q hq
    · have : k = ns.length := by omega
      subst this
      have hq' := hnew q hq
      refine ⟨fun hm => ?_, fun k' hk' hq2 => ?_⟩
      · have := (S.rin.good.valid q hm).2; omega
      · have := (S.at hk').own_lt ((hown k' hk' q).1 hq2); omega

/-- a graph of layers that has just been made -/
structure GNew (shape : List Nat) (ns : List (BNode T)) (b inp0 : Nat) (m0 : Mat) (w : World T) : Prop
    extends GBase shape ns b inp0 m0 w where
  new : ∀ k ≤ ns.length, (w.layers (b + k)).ref = 0 ∧ (w.layers (b + k)).build = false
  next : w.layerNext = b + ns.length + 1

/-- the layers -/
def gids (b n : Nat) : List Nat := (List.range (n + 1)).map (b + ·)

theorem gids_getD {b n k : Nat} (h : k ≤ n) : (gids b n).getD k 0 = b + k := by
  unfold gids
  rw [List.getD_eq_getElem?_getD]
  simp [show k < n + 1 by omega]

theorem gids_succ (b n : Nat) : gids b (n + 1) = gids b n ++ [b + (n + 1)] := by
  unfold gids
  rw [List.range_succ (n := n + 1), List.map_append]
  rfl

/-- what making one more layer does -/
structure Made1 (shape : List Nat) (ns : List (BNode T)) (n : BNode T) (b inp0 : Nat) (m0 : Mat) (w w' : World T) : Prop where
  new : GNew shape (ns ++ [n]) b inp0 m0 w'
  ext : Ext w w'
  val : ∀ q, q < w.store.heap.next → w'.store.heap.val q = w.store.heap.val q
  layers : ∀ k, k ≠ b + 1 + ns.length → w'.layers k = w.layers k
  nets : w'.nets = w.nets
  netNext : w'.netNext = w.netNext
  own : ∀ q, ownCell w' (b + 1 + ns.length) q → w.store.heap.next ≤ q

theorem GNew.step {shape : List Nat} {ns : List (BNode T)} {n : BNode T} {b inp0 : Nat} {m0 : Mat} {w w' : World T}
    (S : GNew shape ns b inp0 m0 w) (g : Ext w w') (hl : ∀ k, k ≠ b + 1 + ns.length → w'.layers k = w.layers k)
    (hs : NodeAt b n w' (b + 1 + ns.length))
    (hnew : ∀ q, ownCell w' (b + 1 + ns.length) q → w.store.heap.next ≤ q)
    (hr : (w'.layers (b + 1 + ns.length)).ref = 0 ∧ (w'.layers (b + 1 + ns.length)).build = false)
    (hn : w'.layerNext = w.layerNext + 1) (hv : ∀ q, q < w.store.heap.next → w'.store.heap.val q = w.store.heap.val q)
    (h1 : w'.nets = w.nets) (h2 : w'.netNext = w.netNext) : Made1 shape ns n b inp0 m0 w w' := by
  refine ⟨⟨S.toGBase.snoc g (fun k hk => hl _ (by omega)) hs hnew, fun k hk => ?_, ?_⟩, g, hv, hl, h1, h2, hnew⟩
  · rw [List.length_append, List.length_singleton] at hk
    rcases Nat.lt_or_ge ns.length k with h | h
    · have : k = ns.length + 1 := by omega
      subst this
      rw [show b + (ns.length + 1) = b + 1 + ns.length by omega]; exact hr
    · rw [hl _ (by omega)]; exact S.new k h
  · rw [hn, S.next, List.length_append, List.length_singleton]; omega

theorem node_create {shape : List Nat} {ns : List (BNode T)} {b inp0 : Nat} {m0 : Mat} {w : World T} (n : BNode T)
    (S : GNew shape ns b inp0 m0 w) (hr : ∀ p ∈ n.reads, p ≤ ns.length) :
    wp True (n.create (gids b ns.length)) (fun l w' => l = b + (ns.length + 1) ∧ Made1 shape ns n b inp0 m0 w w') w := by
  have hid : w.layerNext = b + 1 + ns.length := by rw [S.next]; omega
  cases n with
  | layer s p =>
    have hp : p ≤ ns.length := hr p (by simp [BNode.reads])
    unfold BNode.create
    simp only [gids_getD hp]
    refine wp_bind (wp_mono (create_ok s S.pos) ?_)
    rintro l w1 ⟨rfl, e1, hl, ⟨o, ho⟩, hown, hnew, hln, hnets, hnn, hval⟩
    rw [hid] at hl ho hown hnew ⊢
    refine wp_bind (wp_modify ?_)
    show wp True _ _ (updL (b + 1 + ns.length) (fun x => { x with pre := some (b + p) }) w1)
    refine wp_pure ⟨by omega, ?_⟩
    set w2 : World T := updL (b + 1 + ns.length) (fun x => { x with pre := some (b + p) }) w1 with hw2
    have e12 : Ext w1 w2 := ext_of_eq (le_refl _) rfl rfl
    have el : w2.layers (b + 1 + ns.length) = fresh s (some (b + p)) o := by
      rw [hw2, updL_same, ho]; rfl
    refine S.step (e1.trans e12) (fun k hk => by rw [hw2, updL_ne _ _ hk, hl k hk]) ?_ (fun q hq => hnew q ?_) (by rw [el]; exact ⟨rfl, rfl⟩) hln
      hval hnets hnn
    · refine ⟨by rw [el]; rfl, by rw [el]; rfl, by rw [el]; rfl, by rw [el]; rfl, ?_, by rw [el]; exact ⟨rfl, rfl⟩⟩
      cases s with
      | dense n a =>
        obtain ⟨o', m', h1, h2, h3⟩ := hown
        refine ⟨o', m', ?_, h2.ext e12, h3⟩
        rw [ho] at h1
        rw [el]; exact h1
      | _ => trivial
    · refine (ownCell_congr (w := w1) (w' := w2) ?_ ?_ (fun _ _ _ => rfl) q).1 hq
      · rw [el, ho]; rfl
      · rw [el, ho]; rfl
  | concat i j d =>
    have hi : i ≤ ns.length := hr i (by simp [BNode.reads])
    have hj : j ≤ ns.length := hr j (by simp [BNode.reads])
    unfold BNode.create
    simp only [gids_getD hi, gids_getD hj]
    set w2 : World T := { w with
      layers := fun k => if k = w.layerNext then LayerM.blank (.concat (b + i) (b + j) d) else w.layers k
      layerNext := w.layerNext + 1 } with hw2
    refine wp_of_ok (w' := w2) (r := w.layerNext) rfl ⟨by omega, ?_⟩
    have e12 : Ext w w2 := ext_of_eq (le_refl _) rfl rfl
    have el : w2.layers (b + 1 + ns.length) = LayerM.blank (.concat (b + i) (b + j) d) := by
      rw [← hid]; simp [hw2]
    refine S.step e12 (fun k hk => ?_) ?_ (fun q hq => ?_) (by rw [el]; exact ⟨rfl, rfl⟩) rfl (fun _ _ => rfl) rfl rfl
    · show (if k = w.layerNext then _ else w.layers k) = _
      rw [if_neg (by omega)]
    · exact ⟨by rw [el]; rfl, by rw [el]; rfl, by rw [el]; rfl, by rw [el]; rfl, trivial, by rw [el]; exact ⟨rfl, rfl⟩⟩
    · unfold ownCell at hq
      rw [el] at hq
      exact hq.elim

/-- a model with branches after construction -/
theorem branched_ok (shape : List Nat) (ns : List (BNode T)) (o : Nat) {w : World T} (hpos : 0 < w.store.heap.next)
    (hr : ∀ (k : Nat) (n : BNode T), ns[k]? = some n → ∀ p ∈ n.reads, p ≤ k) (ho : o ≤ ns.length) :
    wp True (branched shape ns o) (fun r w' => r = (w.netNext, gids w.layerNext ns.length) ∧ Apart w w' ∧
      (∃ inp0 m0, GNew shape ns w.layerNext inp0 m0 w' ∧ (∀ q ∈ m0.ops, w.store.heap.next ≤ q) ∧
        ∀ k < ns.length, ∀ q, ownCell w' (w.layerNext + 1 + k) q → w.store.heap.next ≤ q) ∧
      w'.nets w.netNext = { NetM.blankNet with first := some w.layerNext, last := some (w.layerNext + o) } ∧
      w'.netNext = w.netNext + 1) w := by
  unfold branched
  refine wp_bind ?_
  unfold LayerM.newInput
  refine wp_bind (wp_zeros (L := fun _ => False) (C := fun _ => False) hpos fun w2 m2 g2 l2 x2 r2 s2 nd2 f2 => ?_)
  have q2 : 0 < w2.store.heap.next := lt_of_lt_of_le hpos g2.next
  refine wp_bind (wp_zeros (L := fun _ => False) (C := fun _ => False) q2 fun w3 m3 g3 l3 x3 r3 s3 nd3 f3 => ?_)
  have q3 : 0 < w3.store.heap.next := lt_of_lt_of_le q2 g3.next
  have hl3 : w3.layerNext = w.layerNext := by rw [g3.layerNext, g2.layerNext]
  have hm3 : w3.netNext = w.netNext := by rw [g3.netNext, g2.netNext]
  set x0 : Layer T := { LayerM.blank .input with input := some w.nodeNext, dif := some w2.nodeNext } with hx0
  refine wp_of_ok (r := w3.layerNext) (w' := { w3 with
    layers := fun k => if k = w3.layerNext then x0 else w3.layers k
    layerNext := w3.layerNext + 1 }) rfl ?_
  rw [hl3]
  set w4 : World T := { w3 with
    layers := fun k => if k = w.layerNext then x0 else w3.layers k
    layerNext := w.layerNext + 1 } with hw4
  have e24 : Ext w2 w4 := g3.ext.trans (ext_of_eq (le_refl _) rfl rfl)
  have el4 : w4.layers w.layerNext = x0 := by simp [hw4]
  have S0 : GNew shape [] w.layerNext w.nodeNext m2 w4 := by
    refine ⟨⟨q3, by rw [el4]; rfl, by rw [el4]; rfl, by rw [el4]; rfl, by rw [el4], r2.ext e24, s2, nd2,
      by rw [el4]; exact ⟨rfl, rfl⟩, by simp, by simp⟩, ?_, rfl⟩
    intro k hk
    have : k = 0 := by simpa using hk
    subst this
    simp only [Nat.add_zero]
    rw [el4]; exact ⟨rfl, rfl⟩
  have A0 : Apart w w4 := by
    refine ⟨g2.ext.trans e24, fun q hq => ?_, fun l hl => ?_, fun k hk => ?_, ?_, ?_⟩
    · show w3.store.heap.val q = _
      rw [g3.val q (lt_of_lt_of_le hq g2.next) (fun h => h), g2.val q hq (fun h => h)]
    · show (if l = w.layerNext then x0 else w3.layers l) = _
      rw [if_neg (by omega), g3.layers l (fun h => h), g2.layers l (fun h => h)]
    · show w3.nets k = _
      rw [g3.nets, g2.nets]
    · show w.layerNext ≤ w.layerNext + 1; omega
    · show w.netNext ≤ w3.netNext; omega
  -- the other layers
  have loop : ∀ (rest done : List (BNode T)) (wd : World T), ns = done ++ rest →
      GNew shape done w.layerNext w.nodeNext m2 wd → Apart w wd → wd.netNext = w.netNext →
      (∀ k < done.length, ∀ q, ownCell wd (w.layerNext + 1 + k) q → w.store.heap.next ≤ q) →
      wp True (rest.foldlM (fun ids n => do
        let l ← n.create ids
        return ids ++ [l]) (gids w.layerNext done.length) : Run T (List Nat)) (fun ids w' =>
          ids = gids w.layerNext ns.length ∧ GNew shape ns w.layerNext w.nodeNext m2 w' ∧ Apart w w' ∧ w'.netNext = w.netNext ∧
          ∀ k < ns.length, ∀ q, ownCell w' (w.layerNext + 1 + k) q → w.store.heap.next ≤ q) wd := by
    intro rest
    induction rest with
    | nil =>
      intro done wd hd Sd Ad Nd Od
      rw [List.append_nil] at hd
      subst hd
      exact wp_pure ⟨rfl, Sd, Ad, Nd, Od⟩
    | cons n rest ih =>
      intro done wd hd Sd Ad Nd Od
      rw [List.foldlM_cons]
      have hn : ns[done.length]? = some n := by rw [hd]; simp
      refine wp_bind (wp_bind (wp_mono (node_create n Sd (hr _ _ hn)) ?_))
      rintro l we ⟨rfl, M⟩
      refine wp_pure ?_
      rw [← gids_succ, show done.length + 1 = (done ++ [n]).length by simp]
      refine ih (done ++ [n]) we (by rw [hd]; simp) M.new ⟨Ad.ext.trans M.ext, fun q hq => ?_, fun l hl => ?_, fun k hk => ?_, ?_, ?_⟩
        (by rw [M.netNext, Nd]) (fun k hk q hq => ?_)
      · rw [M.val q (lt_of_lt_of_le hq Ad.ext.next), Ad.val q hq]
      · rw [M.layers l (by omega), Ad.layers l hl]
      · rw [M.nets, Ad.nets k hk]
      · rw [M.new.next]; omega
      · rw [M.netNext]; exact Ad.netNext
      · rw [List.length_append, List.length_singleton] at hk
        rcases Nat.lt_or_ge k done.length with h | h
        · have e := M.layers (w.layerNext + 1 + k) (by omega)
          exact Od k h q (((Sd.at h).own_ext M.ext (by rw [e]) (by rw [e]) q).1 hq)
        · have : k = done.length := by omega
          subst this
          exact le_trans Ad.ext.next (M.own q hq)
  refine wp_bind (wp_mono (loop ns [] w4 rfl S0 A0 hm3 (by simp)) ?_)
  rintro _ wf ⟨rfl, Sf, Af, Nf, Of⟩
  rw [gids_getD ho]
  refine wp_bind (wp_of_ok (r := wf.netNext) (w' := { wf with
    nets := fun k => if k = wf.netNext then { NetM.blankNet with first := some w.layerNext, last := some (w.layerNext + o) } else wf.nets k
    netNext := wf.netNext + 1 }) rfl ?_)
  refine wp_pure ?_
  have ef : Ext wf { wf with
    nets := fun k => if k = wf.netNext then { NetM.blankNet with first := some w.layerNext, last := some (w.layerNext + o) } else wf.nets k
    netNext := wf.netNext + 1 } := ext_of_eq (le_refl _) rfl rfl
  refine ⟨by rw [Nf], ⟨Af.ext.trans ef, Af.val, Af.layers, fun k hk => ?_, Af.layerNext, ?_⟩, ⟨_, _, ⟨Sf.toGBase.ext ef fun k _ => ⟨_, _, _, rfl⟩, Sf.new, Sf.next⟩, f2, Of⟩, ?_, ?_⟩
  · show (if k = wf.netNext then _ else wf.nets k) = _
    rw [if_neg (by omega), Af.nets k hk]
  · show w.netNext ≤ wf.netNext + 1; omega
  · show (if w.netNext = wf.netNext then _ else _) = _
    rw [if_pos Nf.symm]
  · show wf.netNext + 1 = _; rw [Nf]

end Godeep
