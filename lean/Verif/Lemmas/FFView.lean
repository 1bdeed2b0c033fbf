import Verif.Lemmas.Pend
import Verif.Lemmas.Compile
/-
  Building the feed-forward part of `Flatten`, `SubTensor`, `SoftMax` and `Norm` layers.
-/
set_option linter.unusedSectionVars false

namespace Godeep
open Spec GoNum

variable {T : Type} [GoNum T]

/-! ### tensors that agree on their elements -/

theorem ofMat_tab {h : Heap T} {m : Mat} {x : STensor T} (H : Holds h m x) : (ofMat h.val m).tab = x.tab := by
  rw [← tab_eq H.shape (holds_flat H)]
  exact tab_iff.2 ⟨rfl, fun idx hi => tab_get hi⟩

theorem flat_tab {a b : STensor T} (h : a.tab = b.tab) : a.flat = b.flat := by
  rw [← tab_flat a, h, tab_flat]

theorem tab_tab (a : STensor T) : a.tab.tab = a.tab := tab_iff.2 ⟨rfl, fun _ hi => tab_get hi⟩

theorem map_tab {a b : STensor T} (f : T → T) (h : a.tab = b.tab) : (a.map f).tab = (b.map f).tab := by
  obtain ⟨h1, h2⟩ := tab_iff.1 h
  refine tab_iff.2 ⟨h1, fun idx hi => ?_⟩
  show f (a.get idx) = f (b.get idx)
  rw [h2 idx hi]

theorem zip_tab {a b a' b' : STensor T} (f : T → T → T) (h : a.tab = a'.tab) (h' : b.tab = b'.tab)
    (hs : a.shape = b.shape) : (a.zip f b).tab = (a'.zip f b').tab := by
  obtain ⟨h1, h2⟩ := tab_iff.1 h
  obtain ⟨h3, h4⟩ := tab_iff.1 h'
  refine tab_iff.2 ⟨h1, fun idx hi => ?_⟩
  show f (a.get idx) (b.get idx) = f (a'.get idx) (b'.get idx)
  rw [h2 idx hi, h4 idx (by rw [← hs]; exact hi)]

theorem reshape_tab {a b : STensor T} (s : List Nat) (h : a.tab = b.tab) : (a.reshape s).tab = (b.reshape s).tab := by
  unfold STensor.reshape; rw [flat_tab h]

theorem reduce_tab {a b : STensor T} (f : List T → T) (h : a.tab = b.tab) : (a.reduce f).tab = (b.reduce f).tab := by
  unfold STensor.reduce; rw [flat_tab h]

theorem shiftNorm1_tab {a b : STensor T} (h : a.tab = b.tab) : (shiftNorm1 a).tab = (shiftNorm1 b).tab := by
  unfold shiftNorm1; rw [flat_tab h]; exact map_tab _ h

theorem slab_tab {a b : STensor T} {d s e : Nat} (h : a.tab = b.tab) (hd : d < a.shape.length)
    (he : e ≤ a.shape.getD d 0) : (a.slab d s e).tab = (b.slab d s e).tab := by
  obtain ⟨h1, h2⟩ := tab_iff.1 h
  refine tab_iff.2 ⟨by show a.shape.set d (e - s) = b.shape.set d (e - s); rw [h1], fun idx hi => ?_⟩
  obtain ⟨v, h3, h4, h5, h6⟩ := inRange_set_elim hd hi
  show a.get (idx.modify d (· + s)) = b.get (idx.modify d (· + s))
  rw [modify_eq_set _ h3]
  exact h2 _ (h6 _ (by omega))

theorem slabFill_tab {a b : STensor T} {d s e : Nat} {z : T} (h : a.tab = b.tab) (hd : d < a.shape.length) :
    (a.slabFill d s e z).tab = (b.slabFill d s e z).tab := by
  obtain ⟨h1, h2⟩ := tab_iff.1 h
  refine tab_iff.2 ⟨by show a.shape.set d (e - s) = b.shape.set d (e - s); rw [h1], fun idx hi => ?_⟩
  obtain ⟨v, h3, h4, h5, h6⟩ := inRange_set_elim hd hi
  show (if idx.getD d 0 + s < a.shape.getD d 0 then a.get (idx.modify d (· + s)) else z) =
    (if idx.getD d 0 + s < b.shape.getD d 0 then b.get (idx.modify d (· + s)) else z)
  rw [← h1]
  split
  · rw [modify_eq_set _ h3]
    exact h2 _ (h6 _ (by omega))
  · rfl

/-! ### one new tensor -/

/-- a new tensor made from one pending tensor -/
theorem Pend.one {w : World T} {n c : Nat} {k : Kind T} {own sh : List Nat} {f G : (Ptr → T) → STensor T}
    {S : Ptr → Prop} {safe : Prop} (p : Pend w c sh f S safe)
    (hnd : w.store.nodes n = Store.lazyNode k own) (hlt : n < w.nodeNext) (hc : c < n) (hk : k.kids = [c])
    (hx : k.isExpr) (hl : k ≠ .leaf) (hsc : ScalarOK w.store.heap k)
    (hfit : k.fits fun _ => sh) (hno : ¬ k.straddles fun _ => sh)
    (hG : ∀ val, ∃ t, k.den val own (fun _ => (f val).tab) = some t ∧ t.tab = (G val).tab)
    (hok : safe → (k.redOK fun _ => sh) ∧ k.divOK) : Pend w n (k.outShape own fun _ => sh) G S safe :=
  Pend.node (sh := fun _ => sh) (F := fun _ => f) hnd hlt (by rw [hk]; simpa using hc)
    (by rw [hk]; simpa using p) hx hl hsc hfit hno hG hok

/-- the scalars in `lo ..< hi` that `ops` do not assign, which must be 0 -/
def Zeros (lo hi : Nat) (ops : List (Op T)) (q : Ptr) (c : T) : Prop :=
  lo ≤ q ∧ q < hi ∧ q ∉ dsts ops ∧ c = zero

/-- a layer without weights -/
theorem ffDone_plain {s : LSpec T} {l out : Nat} {own R : Ptr → Prop} {inM outM : Mat} {ops : List (Op T)}
    {K : Ptr → T → Prop} {w w' : World T} (G : Grow (· = l) R ops w w')
    (hl : ∃ d r ms, w'.layers l = { w.layers l with output := some out, dif := d, ref := r, maxScalar := ms } ∧
      (r = (w.layers l).ref ∨ R r))
    (wn : (w.layers l).weights = none ∧ (w.layers l).bias = none)
    (ro : Ready w' out outM) (so : outM.shape = s.outShape inM.shape) (hps : s.paramShapes inM.shape = [])
    (hfn : ∀ pv x, s.fn pv x = s.fn [] x)
    (dst : ∀ q ∈ dsts ops, w.store.heap.next ≤ q ∧ q < w'.store.heap.next)
    (hout : ∀ q ∈ outM.ops, q ∈ inM.ops ∨ (w.store.heap.next ≤ q ∧ q < w'.store.heap.next))
    (hk : ∀ q c, K q c → w.store.heap.next ≤ q ∧ q < w'.store.heap.next ∧ q ∉ dsts ops)
    (run : ∀ h h' x, w'.store.heap.next ≤ h.next → (∀ q c, K q c → h.val q = c) → Holds h inM x →
      exec ops h = .ok () h' → Holds h' outM (s.fn [] x))
    (fine : s.safe inM.shape → ∀ o ∈ ops, Fine o)
    (kept : ∀ q c, K q c → w'.store.heap.val q = c) : FFDone s l own R inM ops out outM K w w' := by
  obtain ⟨d, r, ms, hl, hr⟩ := hl
  have hp : layerParams w' l = [] := by
    unfold layerParams; rw [hl]; simp only [wn.1]
  refine ⟨G, by rw [hl], by rw [hl], by rw [hl], by rw [hl], ⟨by rw [hl], by rw [hl], by rw [hl], by rw [hl], by rw [hl]⟩,
    by rw [hl]; exact hr, by rw [hl], ro, so, by rw [hp, hps]; rfl, ?_, kept, ?_, ?_, by rw [hp]; simp⟩
  · rw [hp]
    refine ⟨fun q hq => Or.inl (dst q hq), fun q hq => ?_, ?_, ?_, fun q c h => ?_, ?_, fine⟩
    · rcases hout q hq with h | h
      · exact Or.inl h
      · exact Or.inr (Or.inl h)
    · intro p hp m hm; rw [List.mem_singleton.1 hp] at hm; cases hm
    · intro p hp m hm; rw [List.mem_singleton.1 hp] at hm; cases hm
    · obtain ⟨h1, h2, h3⟩ := hk q c h
      refine ⟨h1, h2, h3, fun p hp m hm => ?_⟩
      rw [List.mem_singleton.1 hp] at hm; cases hm
    · intro h h' x pv hn hK H _ he
      show Holds h' outM (s.fn (pv.headD []) x)
      rw [hfn]
      exact run h h' x hn hK H he
  · intro n hn
    rw [hl] at hn
    rcases hn with hn | hn
    · rw [wn.1] at hn; cases hn
    · rw [wn.2] at hn; cases hn
  · rw [hl]; simp [wn.1, wn.2]

theorem ffMore_plain {s : LSpec T} {l p out r ms : Nat} {d : Option Nat} {inM outM : Mat} {ops : List (Op T)}
    {K : Ptr → T → Prop} {w w' : World T} (wn : (w.layers l).weights = none ∧ (w.layers l).bias = none)
    (hl : w'.layers l = { w.layers l with output := some out, dif := d, ref := r, maxScalar := ms })
    (hs : s.weighted = false) (hd : s = .softMax → ∀ r, Source w p r → d = (w.layers r).dif)
    (hn : s ≠ .softMax → ∃ d' dM, d = some d' ∧ Ready w' d' dM ∧ (w'.store.nodes d').kind = .leaf ∧ dM.shape = outM.shape ∧
      dM.ops.Nodup ∧ ∀ q ∈ dM.ops, w.store.heap.next ≤ q ∧ q ∉ dsts ops ∧ q ∉ outM.ops ∧ ∀ c, ¬ K q c)
    (hr : s ≠ .flatten → r = (w.layers l).ref ∧ w'.store.heap.val (w.layers p).ref = w.store.heap.val (w.layers p).ref)
    (hf : s = .flatten → r = (w.layers p).ref ∧
      w'.store.heap.val (w.layers p).ref = add (w.store.heap.val (w.layers p).ref) (w.store.heap.val (w.layers l).ref))
    (hm : s = .norm ∨ s = .eNorm → w.store.heap.next ≤ ms ∧ ms < w'.store.heap.next ∧
      (∀ d' dM, d = some d' → Ready w' d' dM → ms ∉ dM.ops) ∧
      ∀ h h' x, w'.store.heap.next ≤ h.next → (∀ q c, K q c → h.val q = c) → Holds h inM x → exec ops h = .ok () h' →
        h'.val ms = max1 (x.flat.map fun v => if lt v zero then GoNum.neg v else v)) :
    FFMore s l p inM ops outM K w w' := by
  have hp : layerParams w' l = [] := by
    unfold layerParams; rw [hl]; simp only [wn.1]
  refine ⟨by rw [hl], by rw [hl], by rw [hl], fun h r hr => by rw [hl]; exact hd h r hr, fun h => ?_, by simp [hs], by rw [hl]; exact hr, by rw [hl]; exact hf, by rw [hl]; exact hm⟩
  obtain ⟨d', dM, h1, h2, h3, h4, h5, h6⟩ := hn h
  refine ⟨d', dM, by rw [hl]; exact h1, h2, h3, h4, h5, fun q hq => ?_⟩
  obtain ⟨a, b, c, e⟩ := h6 q hq
  exact ⟨a, b, c, e, by rw [hp]; simp⟩

/-- the last lines of several layers -/
theorem wp_zeroDif {tot : Prop} {l out : Nat} {C : Ptr → Prop} {w : World T} {Q : Unit → World T → Prop}
    (hpos : 0 < w.store.heap.next)
    (h : ∀ w', Grow (· = l) C [] w w' → w'.layers l = { w.layers l with dif := some w.nodeNext } →
      (∀ q, q < w.store.heap.next → w'.store.heap.val q = w.store.heap.val q) →
      (∃ dM, Ready w' w.nodeNext dM ∧ (w'.store.nodes w.nodeNext).kind = .leaf ∧ dM.shape = (w.store.nodes out).mat.shape ∧
        dM.ops.Nodup ∧ ∀ q ∈ dM.ops, w.store.heap.next ≤ q) → Q () w') :
    wp tot (LayerM.zeroDif l out) Q w := by
  unfold LayerM.zeroDif
  refine wp_bind (wp_mat ?_)
  refine wp_bind (wp_zerosLeaf (L := (· = l)) (C := fun _ => False) hpos fun w1 m g1 l1 x1 r1 s1 nd1 f1 k1 => ?_)
  refine wp_modify ?_
  have g2 := grow_modify (L := (· = l)) (C := fun _ => False) rfl (fun x => { x with dif := some w.nodeNext }) w1
  have g := g1.trans g2
  simp only [List.append_nil] at g
  refine h _ (g.weaken (fun _ h => h) fun _ h => h.elim) ?_ (fun q hq => g.val q hq id)
    ⟨m, r1.grow g2, k1, s1, nd1, f1⟩
  show (if l = l then _ else _) = _
  rw [if_pos rfl, l1]

/-- the common part of `SubTensor`, `SoftMax` and `Flatten`: one new tensor, built -/
theorem view_done {s : LSpec T} {l p out : Nat} {own R : Ptr → Prop} {inM outM : Mat} {new : List (Op T)}
    {sh : List Nat} {f : (Ptr → T) → STensor T} {wa w1 w2 w' : World T}
    (G1 : Grow (· = l) R [] wa w1) (B : BuiltP (· = l) (fun _ => False) out sh f (· ∈ inM.ops) (s.safe inM.shape) new outM w1 w2)
    (G2 : Grow (· = l) (fun _ => False) [] w2 w')
    {d : Option Nat} {r ms : Nat} (hl : w'.layers l = { wa.layers l with output := some out, dif := d, ref := r, maxScalar := ms })
    (hrr : r = (wa.layers l).ref ∨ R r)
    (hw : s.weighted = false) (hd : s = .softMax → ∀ r, Source wa p r → d = (wa.layers r).dif)
    (hn : s ≠ .softMax → ∃ d' dM, d = some d' ∧ Ready w' d' dM ∧ (w'.store.nodes d').kind = .leaf ∧ dM.shape = sh ∧
      dM.ops.Nodup ∧ ∀ q ∈ dM.ops, w2.store.heap.next ≤ q)
    (hr : s ≠ .flatten → r = (wa.layers l).ref ∧ w1.store.heap.val (wa.layers p).ref = wa.store.heap.val (wa.layers p).ref)
    (hf : s = .flatten → r = (wa.layers p).ref ∧
      w1.store.heap.val (wa.layers p).ref = add (wa.store.heap.val (wa.layers p).ref) (wa.store.heap.val (wa.layers l).ref))
    (hrp : (wa.layers p).ref < wa.store.heap.next) (hm : s ≠ .norm ∧ s ≠ .eNorm)
    (wn : (wa.layers l).weights = none ∧ (wa.layers l).bias = none)
    (so : sh = s.outShape inM.shape) (hps : s.paramShapes inM.shape = [])
    (hfn : ∀ pv x, s.fn pv x = s.fn [] x)
    (hval : ∀ (h : Heap T) x, Holds h inM x → (f h.val).tab = (s.fn [] x).tab) :
    FFDone s l own R inM new out outM (Zeros w1.store.heap.next w2.store.heap.next new) wa w' ∧
    FFMore s l p inM new outM (Zeros w1.store.heap.next w2.store.heap.next new) wa w' := by
  have n1 := G1.next
  have n2 := B.grow.next
  have n3 := G2.next
  have G : Grow (· = l) R new wa w' := by
    have := (G1.trans (B.grow.weaken (fun _ h => h) fun _ h => h.elim)).trans (G2.weaken (fun _ h => h) fun _ h => h.elim)
    simpa using this
  have hv : w'.store.heap.val (wa.layers p).ref = w1.store.heap.val (wa.layers p).ref := by
    rw [G2.val _ (by omega) id, B.grow.val _ (by omega) id]
  refine ⟨ffDone_plain G ⟨d, r, ms, hl, hrr⟩ wn (B.ready.grow G2) (by rw [B.shape, so]) hps hfn (fun q hq => ?_) (fun q hq => ?_) ?_ ?_ B.fine ?_,
    ffMore_plain wn hl hw hd (fun h => ?_) (by rw [hv]; exact hr) (by rw [hv]; exact hf) (fun h => absurd h (by simp [hm]))⟩
  · have := B.dst q hq; omega
  · rcases B.cells q hq with h | h
    · right; omega
    · exact Or.inl h
  · rintro q c ⟨h1, h2, h3, _⟩
    exact ⟨by omega, by omega, h3⟩
  · intro h h' x hn hK H he
    refine (B.run h h' (by omega) (fun q h1 h2 h3 => hK q _ ⟨h1, h2, h3, rfl⟩) he).of_tab (hval h x H)
  · rintro q c ⟨h1, h2, h3, rfl⟩
    rw [G2.val q h2 id, B.zero q h1 h2]
  · obtain ⟨d', dM, e1, e2, e3, e4, e5, e6⟩ := hn h
    refine ⟨d', dM, e1, e2, e3, by rw [e4, B.shape], e5, fun q hq => ?_⟩
    have := e6 q hq
    refine ⟨by omega, fun h => ?_, fun h => ?_, ?_⟩
    · have := B.dst q h; omega
    · have := (B.ready.good.valid q h).2; omega
    · rintro c ⟨_, h2, _⟩; omega

theorem ffGood_sub (d f t : Nat) : FFGood (.sub d f t : LSpec T) := by
  intro w fuel l p inp inM P
  obtain ⟨hd, hft, ht⟩ := P.fits
  show wp True (LayerM.subFF d f t fuel l p) _ w
  unfold LayerM.subFF
  obtain ⟨rs, rs1, rs2, rs3, rs4⟩ := P.res
  refine wp_bind (wp_of_ok (delegated_src P.fuel rs2 rs4) ?_)
  refine wp_bind (wp_deref rs3 ?_)
  refine wp_bind (wp_lazy (L := (· = l)) (C := (· = (w.layers p).ref)) fun w1 g1 l1 h1 x1 nd1 _ => ?_)
  refine wp_bind (wp_modify ?_)
  have m1 := grow_modify (L := (· = l)) (C := (· = (w.layers p).ref)) rfl (fun x => { x with output := some w.nodeNext }) w1
  set w2 : World T := { w1 with layers := fun k => if k = l then { w1.layers k with output := some w.nodeNext } else w1.layers k } with hw2
  have G1 := g1.trans m1
  simp only [List.append_nil] at G1
  have pin := (P.rin.grow G1).pend (LSpec.safe (.sub d f t : LSpec T) inM.shape)
  have p2 : Pend w2 w.nodeNext (inM.shape.set d (t - f)) (fun val => (ofMat val inM).slab d f t) (· ∈ inM.ops)
      (LSpec.safe (.sub d f t : LSpec T) inM.shape) := by
    refine pin.one (k := .sub d f t false inp) (own := []) nd1 (by show w.nodeNext < w1.nodeNext; omega) P.rin.lt rfl trivial (by simp) trivial
      ⟨hd, hft, Or.inr ht⟩ (by simp [Kind.straddles]) (fun val => ?_) (fun _ => ⟨trivial, trivial⟩)
    refine ⟨_, if_pos ⟨hd, hft, Or.inr ht⟩, ?_⟩
    rw [if_neg (by simp)]
    exact slab_tab (tab_tab _) hd ht
  have q2 : 0 < w2.store.heap.next := by show 0 < w1.store.heap.next; rw [h1]; exact P.pos
  refine wp_bind (wp_build (L := (· = l)) (C := fun _ => False) p2 q2 fun w3 new m B => ?_)
  refine wp_zeroDif (C := fun _ => False) (lt_of_lt_of_le q2 B.grow.next) fun w4 g4 l4 _ ⟨dM, rd, kd, sd, nd, fd⟩ => ?_
  refine ⟨new, w.nodeNext, m, _, view_done (p := p) (d := some w3.nodeNext) (r := (w.layers l).ref) (ms := (w.layers l).maxScalar) G1 B g4 ?_ (Or.inl rfl) rfl (by simp)
    (fun _ => ⟨_, dM, rfl, rd, kd, by rw [sd, B.ready.mat, B.shape], nd, fd⟩) (fun _ => ⟨rfl, by show w1.store.heap.val _ = _; rw [h1]⟩) (by simp) P.refb.1 (by simp) P.wn rfl rfl (fun _ _ => rfl)
    fun h x H => slab_tab (ofMat_tab H) hd ht⟩
  rw [l4, B.layers, hw2]
  simp [l1]

theorem ffGood_softMax : FFGood (.softMax : LSpec T) := by
  intro w fuel l p inp inM P
  show wp True (LayerM.softMaxFF fuel l p) _ w
  unfold LayerM.softMaxFF
  refine wp_bind (wp_layer ?_)
  refine wp_bind (wp_deref P.input ?_)
  refine wp_bind (wp_lazy (L := (· = l)) (C := (· = (w.layers p).ref)) fun w1 g1 l1 h1 x1 nd1 _ => ?_)
  refine wp_bind (wp_modify ?_)
  have m1 := grow_modify (L := (· = l)) (C := (· = (w.layers p).ref)) rfl (fun x => { x with output := some w.nodeNext }) w1
  set w2 : World T := { w1 with layers := fun k => if k = l then { w1.layers k with output := some w.nodeNext } else w1.layers k } with hw2
  have G1 := g1.trans m1
  simp only [List.append_nil] at G1
  have pin := (P.rin.grow G1).pend (LSpec.safe (.softMax : LSpec T) inM.shape)
  have p2 : Pend w2 w.nodeNext inM.shape (fun val => shiftNorm1 (ofMat val inM)) (· ∈ inM.ops)
      (LSpec.safe (.softMax : LSpec T) inM.shape) := by
    refine pin.one (k := .softMax inp) (own := []) nd1 (by show w.nodeNext < w1.nodeNext; omega) P.rin.lt rfl trivial (by simp) trivial
      trivial (by simp [Kind.straddles]) (fun val => ?_) (fun h => ⟨h.1, h.2⟩)
    exact ⟨_, rfl, shiftNorm1_tab (tab_tab _)⟩
  have q2 : 0 < w2.store.heap.next := by show 0 < w1.store.heap.next; rw [h1]; exact P.pos
  refine wp_bind (wp_build (L := (· = l)) (C := fun _ => False) p2 q2 fun w3 new m B => ?_)
  have hpk : w3.layers p = w.layers p := by
    rw [B.layers, hw2]; simp only; rw [if_neg P.ne, l1]
  obtain ⟨rs, rs1, rs2, rs3, rs4⟩ := P.res
  have hrk : w3.layers rs = w.layers rs := by
    rw [B.layers, hw2]; simp only; rw [if_neg rs1, l1]
  have hik : ∀ k, (w.layers k).kind = .input → w3.layers k = w.layers k := fun k hk => by
    have hkl : k ≠ l := fun e => by
      rw [e, P.kind] at hk
      cases hk
    rw [B.layers, hw2]; simp only; rw [if_neg hkl, l1]
  refine wp_bind (wp_of_ok (delegated_src (field := Layer.dif) P.fuel (rs2.congr hik hrk) fun h => (rs4 h).imp fun n hn => ⟨hn.1, hn.2.congr hik⟩) ?_)
  refine wp_modify ?_
  have m4 := grow_modify (L := (· = l)) (C := fun _ => False) rfl (fun x => { x with dif := (w3.layers rs).dif }) w3
  refine ⟨new, w.nodeNext, m, _, view_done (p := p) (d := (w3.layers rs).dif) (r := (w.layers l).ref) (ms := (w.layers l).maxScalar) G1 B m4 ?_ (Or.inl rfl) rfl (fun _ r hr => by rw [hr.unique rs2, hrk])
    (by simp) (fun _ => ⟨rfl, by show w1.store.heap.val _ = _; rw [h1]⟩) (by simp) P.refb.1 (by simp) P.wn rfl rfl (fun _ _ => rfl)
    fun h x H => shiftNorm1_tab (ofMat_tab H)⟩
  simp [B.layers, hw2, l1]

theorem ffGood_flatten : FFGood (.flatten : LSpec T) := by
  intro w fuel l p inp inM P
  show wp True (LayerM.flattenFF fuel l p) _ w
  unfold LayerM.flattenFF
  obtain ⟨rs, rs1, rs2, rs3, rs4⟩ := P.res
  refine wp_bind (wp_of_ok (delegated_src P.fuel rs2 rs4) ?_)
  refine wp_bind (wp_deref rs3 ?_)
  refine wp_bind ?_
  unfold Run.flatten
  refine wp_bind' (wp_mat ?_)
  have es : (w.store.nodes inp).mat.getSize = size inM.shape := by
    rw [P.rin.mat]; simp [Mat.getSize, P.rin.good.len]
  rw [es]
  refine wp_reshape (L := (· = l)) (C := (· = (w.layers p).ref)) fun w1 g1 l1 h1 x1 nd1 _ => ?_
  refine wp_bind (wp_modify ?_)
  have m1 := grow_modify (L := (· = l)) (C := (· = (w.layers p).ref)) rfl (fun x => { x with output := some w.nodeNext }) w1
  set w2 : World T := { w1 with layers := fun k => if k = l then { w1.layers k with output := some w.nodeNext } else w1.layers k } with hw2
  refine wp_bind (wp_layer ?_)
  have hl2 : w2.layers l = { w.layers l with output := some w.nodeNext } := by simp [hw2, l1]
  have hp2 : w2.layers p = w.layers p := by simp [hw2, l1, P.ne]
  refine wp_bind (wp_of_ok (value_ok (by rw [hl2]; exact P.refl)) ?_)
  set v := w2.store.heap.val (w2.layers l).ref with hv
  have hr2 : 0 < (w2.layers p).ref := by rw [hp2]; exact P.refp
  refine wp_bind ?_
  unfold LayerM.addRef
  refine wp_bind (wp_of_ok (getRef_old hr2) ?_)
  refine wp_bind (wp_of_ok (value_ok hr2) ?_)
  refine wp_of_ok (setValue_ok hr2 _) ?_
  set w3 : World T := putW (w2.layers p).ref (add (w2.store.heap.val (w2.layers p).ref) v) w2 with hw3
  have g3 : Grow (· = l) (· = (w.layers p).ref) [] w2 w3 := by
    refine ⟨le_refl _, fun q _ hq => ?_, le_refl _, fun _ _ => rfl, fun _ _ h => ⟨h, rfl⟩, fun _ _ => rfl, rfl, rfl, rfl, by simp [hw3, putW]⟩
    show (w2.store.heap.put _ _).val q = _
    rw [put_val, if_neg (by rw [hp2]; exact hq)]
  refine wp_bind (wp_of_ok (getRef_old (l := p) (w := w3) hr2) ?_)
  refine wp_bind (wp_modify ?_)
  have m4 := grow_modify (L := (· = l)) (C := (· = (w.layers p).ref)) rfl (fun x => { x with ref := (w3.layers p).ref }) w3
  set w4 : World T := { w3 with layers := fun k => if k = l then { w3.layers k with ref := (w3.layers p).ref } else w3.layers k } with hw4
  have G1 := ((g1.trans m1).trans g3).trans m4
  simp only [List.append_nil] at G1
  have pin := (P.rin.grow G1).pend (LSpec.safe (.flatten : LSpec T) inM.shape)
  have p4 : Pend w4 w.nodeNext [size inM.shape] (fun val => (ofMat val inM).reshape [size inM.shape]) (· ∈ inM.ops)
      (LSpec.safe (.flatten : LSpec T) inM.shape) := by
    refine pin.one (k := .reshape inp) (own := [size inM.shape]) nd1 (by show w.nodeNext < w1.nodeNext; omega) P.rin.lt rfl trivial (by simp) trivial
      trivial (by simp [Kind.straddles]) (fun val => ?_) (fun h => ⟨trivial, trivial⟩)
    exact ⟨_, rfl, reshape_tab _ (tab_tab _)⟩
  have q4 : 0 < w4.store.heap.next := by show 0 < w1.store.heap.next; rw [h1]; exact P.pos
  refine wp_bind (wp_build (L := (· = l)) (C := fun _ => False) p4 q4 fun w5 new m B => ?_)
  refine wp_zeroDif (C := fun _ => False) (lt_of_lt_of_le q4 B.grow.next) fun w6 g6 l6 _ ⟨dM, rd, kd, sd, nd, fd⟩ => ?_
  refine ⟨new, w.nodeNext, m, _, view_done (p := p) (d := some w5.nodeNext) (r := (w.layers p).ref) (ms := (w.layers l).maxScalar) G1 B g6 ?_ (Or.inr rfl) rfl (by simp)
    (fun _ => ⟨_, dM, rfl, rd, kd, by rw [sd, B.ready.mat, B.shape], nd, fd⟩) (by simp) (fun _ => ⟨rfl, ?_⟩) P.refb.1 (by simp) P.wn rfl rfl (fun _ _ => rfl)
    fun h x H => ?_⟩
  · rw [l6, B.layers, hw4]
    have e1 : w3.layers l = w2.layers l := rfl
    have e2 : w3.layers p = w2.layers p := rfl
    simp [e1, e2, hl2, hp2]
  · show (w2.store.heap.put _ _).val _ = _
    rw [put_val, hp2, if_pos rfl, hv, hl2]
    show add (w1.store.heap.val _) (w1.store.heap.val _) = _
    rw [h1]
  · show ((ofMat h.val inM).reshape [size inM.shape]).tab = (x.reshape [size x.shape]).tab
    rw [← H.shape]
    exact reshape_tab _ (ofMat_tab H)

/-- `Norm` and `ENorm` -/
theorem normFF_ok {s : LSpec T} {mn mx : T} {w : World T} {fuel l p inp : Nat} {inM : Mat} (P : FFPre s w fuel l p inp inM)
    (so : s.outShape inM.shape = inM.shape) (hps : s.paramShapes inM.shape = [])
    (hfn : ∀ pv x, s.fn pv x = normFn mn mx x)
    (hsafe : s.safe inM.shape → size inM.shape ≠ 0 ∧ ∀ x y : T, divPanics x y = false)
    (hw : s.weighted = false ∧ s ≠ .softMax ∧ s ≠ .flatten) :
    wp True (LayerM.normFF mn mx l) (fun _ w' => ∃ ops out outM K,
      FFDone s l (ownCell w l) (· = (w.layers p).ref) inM ops out outM K w w' ∧ FFMore s l p inM ops outM K w w') w := by
  unfold LayerM.normFF
  refine wp_bind (wp_layer ?_)
  refine wp_bind (wp_deref P.input ?_)
  refine wp_bind (wp_lazy (L := (· = l)) (C := fun _ => False) fun w1 g1 l1 h1 x1 nd1 _ => ?_)
  have pin1 := (P.rin.grow g1).pend (s.safe inM.shape)
  have pa : Pend w1 w.nodeNext inM.shape (fun val => (ofMat val inM).map fun x => if lt x zero then GoNum.neg x else x)
      (· ∈ inM.ops) (s.safe inM.shape) := by
    refine pin1.one (k := .abs inp) (own := []) nd1 (by omega) P.rin.lt rfl trivial (by simp) trivial
      trivial (by simp [Kind.straddles]) (fun val => ?_) (fun h => ⟨trivial, trivial⟩)
    exact ⟨_, rfl, map_tab _ (tab_tab _)⟩
  have q1 : 0 < w1.store.heap.next := by rw [h1]; exact P.pos
  refine wp_bind (wp_build (L := (· = l)) (C := fun _ => False) pa q1 fun w2 new1 aM A => ?_)
  have q2 : 0 < w2.store.heap.next := lt_of_lt_of_le q1 A.grow.next
  refine wp_bind (wp_scalar (L := (· = l)) (C := fun _ => False) fun w3 g3 e3 v3 l3 nd3 x3 => ?_)
  refine wp_bind (wp_modify ?_)
  have m4 := grow_modify (L := (· = l)) (C := fun _ => False) rfl (fun x => { x with maxScalar := w2.store.heap.next }) w3
  set w4 : World T := { w3 with layers := fun k => if k = l then { w3.layers k with maxScalar := w2.store.heap.next } else w3.layers k } with hw4
  refine wp_bind (wp_mat ?_)
  have ra4 : Ready w4 w.nodeNext aM := A.ready.grow (g3.trans m4)
  rw [ra4.mat]
  refine wp_bind (wp_push (L := (· = l)) (C := fun _ => False) fun w5 g5 h5 l5 x5 nd5 => ?_)
  have n5 : w5.store.heap.next = w2.store.heap.next + 1 := by rw [h5]; exact e3
  refine wp_bind (wp_lazy (L := (· = l)) (C := fun _ => False) fun w6 g6 l6 h6 x6 nd6 _ => ?_)
  refine wp_bind (wp_scalar (L := (· = l)) (C := fun _ => False) fun w7 g7 e7 v7 l7 nd7 x7 => ?_)
  refine wp_bind (wp_lazy (L := (· = l)) (C := fun _ => False) fun w8 g8 l8 h8 x8 nd8 _ => ?_)
  refine wp_bind (wp_scalar (L := (· = l)) (C := fun _ => False) fun w9 g9 e9 v9 l9 nd9 x9 => ?_)
  refine wp_bind (wp_lazy (L := (· = l)) (C := fun _ => False) fun w10 g10 l10 h10 x10 nd10 o10 => ?_)
  refine wp_bind (wp_modify ?_)
  have m11 := grow_modify (L := (· = l)) (C := fun _ => False) rfl (fun x => { x with output := some w9.nodeNext }) w10
  set w11 : World T := { w10 with layers := fun k => if k = l then { w10.layers k with output := some w9.nodeNext } else w10.layers k } with hw11
  have n6 : w6.store.heap.next = w2.store.heap.next + 1 := by rw [h6, n5]
  have n8 : w8.store.heap.next = w2.store.heap.next + 2 := by rw [h8, e7, n6]
  have n11 : w11.store.heap.next = w2.store.heap.next + 3 := by show w10.store.heap.next = _; rw [h10, e9, n8]
  rw [n6] at v7
  rw [n8] at v9
  simp only [n6, n8] at nd8 nd10
  have Ga := A.grow
  have Gs := (g3.trans m4).trans g5
  simp only [List.append_nil, List.nil_append] at Gs
  have Gt := ((((g6.trans g7).trans g8).trans g9).trans g10).trans m11
  simp only [List.append_nil] at Gt
  have Gin := ((g1.trans Ga).trans Gs).trans Gt
  simp only [List.append_nil, List.nil_append] at Gin
  -- the nodes of the expression in w11
  have k5 : w.nodeNext < w5.nodeNext := by
    have := A.ready.lt; have := g3.nodeNext; have := m4.nodeNext; have := g5.nodeNext
    have e : w4.nodeNext = w3.nodeNext := rfl
    omega
  have i5 : inp < w5.nodeNext := lt_trans P.rin.lt k5
  have b6 : w6.nodeNext = w5.nodeNext + 1 := x6
  have b7 : w7.nodeNext = w5.nodeNext + 1 := by rw [x7, x6]
  have b8 : w8.nodeNext = w5.nodeNext + 2 := by rw [x8, b7]
  have b9 : w9.nodeNext = w5.nodeNext + 2 := by rw [x9, b8]
  have b10 : w10.nodeNext = w5.nodeNext + 3 := by rw [x10, b9]
  have f1 : w11.store.nodes w5.nodeNext = Store.lazyNode (.opScalar .div inp w2.store.heap.next) [] := by
    show w10.store.nodes _ = _
    rw [o10 _ (by omega), nd9]
    rename_i o8
    rw [o8 _ (by omega), nd7, nd6]
  have f2 : w11.store.nodes w7.nodeNext = Store.lazyNode (.opScalar .mul w5.nodeNext (w2.store.heap.next + 1)) [] := by
    show w10.store.nodes _ = _
    rw [o10 _ (by omega), nd9, nd8]
  have f3 : w11.store.nodes w9.nodeNext = Store.lazyNode (.opScalar .add w7.nodeNext (w2.store.heap.next + 2)) [] := nd10
  have lt11 : w11.nodeNext = w5.nodeNext + 3 := b10
  have pin : Pend w11 inp inM.shape (fun val => ofMat val inM) (· ∈ inM.ops) (s.safe inM.shape) := (P.rin.grow Gin).pend _
  have p1 : Pend w11 w5.nodeNext inM.shape (fun val => (ofMat val inM).map fun x => GoNum.div x (val w2.store.heap.next))
      (· ∈ inM.ops) (s.safe inM.shape) := by
    refine pin.one (k := .opScalar .div inp w2.store.heap.next) (own := []) f1 (by omega) i5 rfl trivial (by simp)
      ⟨q2, by omega⟩ trivial (by simp [Kind.straddles]) (fun val => ?_) (fun h => ⟨trivial, (hsafe h).2⟩)
    exact ⟨_, rfl, map_tab _ (tab_tab _)⟩
  have p2 : Pend w11 w7.nodeNext inM.shape (fun val => ((ofMat val inM).map fun x => GoNum.div x (val w2.store.heap.next)).map
      fun x => GoNum.mul x (val (w2.store.heap.next + 1))) (· ∈ inM.ops) (s.safe inM.shape) := by
    refine p1.one (k := .opScalar .mul w5.nodeNext (w2.store.heap.next + 1)) (own := []) f2 (by omega) (by omega) rfl trivial (by simp)
      ⟨by omega, by omega⟩ trivial (by simp [Kind.straddles]) (fun val => ?_) (fun h => ⟨trivial, trivial⟩)
    exact ⟨_, rfl, map_tab _ (tab_tab _)⟩
  have p3 : Pend w11 w9.nodeNext inM.shape (fun val => (((ofMat val inM).map fun x => GoNum.div x (val w2.store.heap.next)).map
      fun x => GoNum.mul x (val (w2.store.heap.next + 1))).map fun x => GoNum.add x (val (w2.store.heap.next + 2)))
      (· ∈ inM.ops) (s.safe inM.shape) := by
    refine p2.one (k := .opScalar .add w7.nodeNext (w2.store.heap.next + 2)) (own := []) f3 (by omega) (by omega) rfl trivial (by simp)
      ⟨by omega, by omega⟩ trivial (by simp [Kind.straddles]) (fun val => ?_) (fun h => ⟨trivial, trivial⟩)
    exact ⟨_, rfl, map_tab _ (tab_tab _)⟩
  have q11 : 0 < w11.store.heap.next := by omega
  refine wp_bind (wp_build (L := (· = l)) (C := fun _ => False) p3 q11 fun w12 new2 oM B => ?_)
  have q12 : 0 < w12.store.heap.next := lt_of_lt_of_le q11 B.grow.next
  refine wp_zeroDif (C := fun _ => False) q12 fun w13 g13 l13 _ ⟨dM, rd, kd, sd, nd, fd⟩ => ?_
  have a1 : w1.store.heap.next = w.store.heap.next := by rw [h1]
  have a2 := A.grow.next
  have a3 := B.grow.next
  have a4 := g13.next
  have G0 := (Gin.trans B.grow).trans g13
  simp only [List.append_nil] at G0
  have hd1 : ∀ q ∈ dsts new1, w.store.heap.next ≤ q ∧ q < w2.store.heap.next := fun q hq => by
    have := A.dst q hq; omega
  have hd2 : ∀ q ∈ dsts new2, w11.store.heap.next ≤ q ∧ q < w12.store.heap.next := B.dst
  have hds : ∀ q, q ∈ dsts (new1 ++ [Op.asg w2.store.heap.next (.max aM.ops)] ++ new2) ↔
      q ∈ dsts new1 ∨ q = w2.store.heap.next ∨ q ∈ dsts new2 := fun q => by
    simp only [dsts_append, List.mem_append, dsts_asg, dsts_nil, List.mem_singleton, or_assoc]
  let K : Ptr → T → Prop := fun q c =>
    Zeros w1.store.heap.next w2.store.heap.next new1 q c ∨ (q = w2.store.heap.next + 1 ∧ c = GoNum.sub mx mn) ∨
    (q = w2.store.heap.next + 2 ∧ c = mn) ∨ Zeros w11.store.heap.next w12.store.heap.next new2 q c
  refine ⟨new1 ++ [Op.asg w2.store.heap.next (.max aM.ops)] ++ new2, w9.nodeNext, oM, K, ?_⟩
  have hlay : w13.layers l = { w.layers l with output := some w9.nodeNext, dif := some w12.nodeNext, ref := (w.layers l).ref, maxScalar := w2.store.heap.next } := by
    rw [l13, B.layers, hw11]
    simp [l10, l9, l8, l7, l6, l5, hw4, l3, A.layers, l1]
  have hmax : ∀ (h ha hb : Heap T) (x : STensor T), w13.store.heap.next ≤ h.next → (∀ q c, K q c → h.val q = c) → Holds h inM x →
      exec new1 h = .ok () ha → exec [Op.asg w2.store.heap.next (.max aM.ops)] ha = .ok () hb →
      hb = ha.put w2.store.heap.next (max1 (x.flat.map fun v => if lt v zero then GoNum.neg v else v)) := by
    intro h ha hb x hn hK H he0 he1
    have hA := A.run h ha (by omega) (fun q h1 h2 h3 => hK q _ (Or.inl ⟨h1, h2, h3, rfl⟩)) he0
    obtain ⟨v, hv, rfl⟩ := exec_asg1 he1
    have hv' : v = max1 (aM.ops.map ha.val) := red_eval (o := .max) hv
    have e1 : ((ofMat h.val inM).map fun x => if lt x zero then GoNum.neg x else x).flat =
        x.flat.map fun v => if lt v zero then GoNum.neg v else v := by
      rw [← flat_tab (ofMat_tab H)]
      simp only [STensor.flat, STensor.map, List.map_map]; rfl
    rw [holds_flat hA, e1] at hv'
    rw [hv']
  refine ⟨ffDone_plain (G0.weaken (fun _ h => h) fun _ h => h.elim) ⟨_, _, _, hlay, Or.inl rfl⟩ P.wn (B.ready.grow g13) (by rw [B.shape, so]) hps
    (fun pv x => by rw [hfn, hfn]) ?_ ?_ ?_ ?_ ?_ ?_, ffMore_plain P.wn hlay hw.1 (fun h => absurd h hw.2.1)
    (fun _ => ⟨_, dM, rfl, rd, kd, by rw [sd, B.ready.mat], nd, fun q hq => ?_⟩) (fun _ => ⟨rfl, G0.val _ P.refb.1 id⟩)
    (fun h => absurd h hw.2.2) fun _ => ⟨by omega, by omega, fun d' dM' h1 h2 h3 => ?_, fun h h' x hn hK H he => ?_⟩⟩
  · intro q hq
    rcases (hds q).1 hq with h | h | h
    · have := hd1 q h; omega
    · omega
    · have := hd2 q h; omega
  · intro q hq
    rcases B.cells q hq with h | h
    · right; omega
    · exact Or.inl h
  · intro q c hk
    rw [hds]
    rcases hk with ⟨k1, k2, k3, _⟩ | ⟨rfl, _⟩ | ⟨rfl, _⟩ | ⟨k1, k2, k3, _⟩
    · refine ⟨by omega, by omega, ?_⟩
      rintro (h | h | h)
      · exact k3 h
      · omega
      · have := hd2 q h; omega
    · refine ⟨by omega, by omega, ?_⟩
      rintro (h | h | h)
      · have := hd1 _ h; omega
      · omega
      · have := hd2 _ h; omega
    · refine ⟨by omega, by omega, ?_⟩
      rintro (h | h | h)
      · have := hd1 _ h; omega
      · omega
      · have := hd2 _ h; omega
    · refine ⟨by omega, by omega, ?_⟩
      rintro (h | h | h)
      · have := hd1 q h; omega
      · omega
      · exact k3 h
  · intro h h' x hn hK H he
    rw [exec_append_ok] at he
    obtain ⟨hb, he1, he2⟩ := he
    rw [exec_append_ok] at he1
    obtain ⟨ha, he0, he1⟩ := he1
    have hA := A.run h ha (by omega) (fun q h1 h2 h3 => hK q _ (Or.inl ⟨h1, h2, h3, rfl⟩)) he0
    obtain ⟨v, hv, rfl⟩ := exec_asg1 he1
    have hv' : v = max1 (aM.ops.map ha.val) := red_eval (o := .max) hv
    obtain ⟨fa1, fa2⟩ := exec_frame he0
    have Hin : Holds (ha.put w2.store.heap.next v) inM x := by
      refine H.kept (by show h.next ≤ ha.next; omega) fun q hq => ?_
      have := (P.rin.good.valid q hq).2
      rw [put_val, if_neg (by omega), fa2 q fun hd => by have := hd1 q hd; omega]
    have kk : ∀ q, w2.store.heap.next < q → (ha.put w2.store.heap.next v).val q = h.val q := fun q hq => by
      rw [put_val, if_neg (by omega), fa2 q fun hd => by have := hd1 q hd; omega]
    have HB := B.run (ha.put w2.store.heap.next v) h' (by show _ ≤ ha.next; omega) (fun q h1 h2 h3 => by
      rw [kk q (by omega)]
      exact hK q _ (Or.inr (Or.inr (Or.inr ⟨h1, h2, h3, rfl⟩)))) he2
    refine HB.of_tab ?_
    rw [hfn]
    simp only [kk _ (Nat.lt_succ_self _), kk (w2.store.heap.next + 2) (by omega)]
    rw [hK _ _ (Or.inr (Or.inl ⟨rfl, rfl⟩)), hK _ _ (Or.inr (Or.inr (Or.inl ⟨rfl, rfl⟩)))]
    have e0 : (ha.put w2.store.heap.next v).val w2.store.heap.next = v := by rw [put_val, if_pos rfl]
    rw [e0]
    have e1 : ((ofMat h.val inM).map fun x => if lt x zero then GoNum.neg x else x).flat =
        x.flat.map fun v => if lt v zero then GoNum.neg v else v := by
      rw [← flat_tab (ofMat_tab H)]
      simp only [STensor.flat, STensor.map, List.map_map]; rfl
    rw [holds_flat hA, e1] at hv'
    rw [show normFn mn mx x = ((x.map fun y => GoNum.div y v).map fun y => GoNum.mul y (GoNum.sub mx mn)).map
      fun y => GoNum.add y mn by rw [hv']; rfl]
    exact map_tab _ (map_tab _ (map_tab _ (ofMat_tab Hin)))
  · intro hs o ho
    rw [List.mem_append, List.mem_append, List.mem_singleton] at ho
    rcases ho with (ho | rfl) | ho
    · exact A.fine hs o ho
    · refine ⟨q2, fun q hq => (A.ready.good.valid q hq).1, ?_, trivial⟩
      show aM.ops ≠ []
      intro h
      have := A.ready.good.len
      rw [h, A.shape] at this
      exact (hsafe hs).1 this.symm
    · exact B.fine hs o ho
  · intro q c hk
    have keep : ∀ q, q < w11.store.heap.next → w13.store.heap.val q = w11.store.heap.val q := fun q hq => by
      rw [g13.val q (by omega) id, B.grow.val q hq id]
    rcases hk with ⟨k1, k2, k3, rfl⟩ | ⟨rfl, rfl⟩ | ⟨rfl, rfl⟩ | ⟨k1, k2, k3, rfl⟩
    · rw [keep q (by omega), Gt.val q (by omega) id, Gs.val q (by omega) id, A.zero q k1 k2]
    · have := (((g8.trans g9).trans g10).trans m11).val (w2.store.heap.next + 1) (by omega) id
      rw [keep _ (by omega), this, v7]
    · have := (g10.trans m11).val (w2.store.heap.next + 2) (by omega) id
      rw [keep _ (by omega), this, v9]
    · rw [g13.val q k2 id, B.zero q k1 k2]
  · have hq' := fd q hq
    refine ⟨by omega, fun h => ?_, fun h => ?_, fun c hk => ?_⟩
    · rcases (hds q).1 h with h | h | h
      · have := hd1 q h; omega
      · omega
      · have := hd2 q h; omega
    · have := (B.ready.good.valid q h).2; omega
    · rcases hk with ⟨_, k2, _⟩ | ⟨rfl, _⟩ | ⟨rfl, _⟩ | ⟨_, k2, _⟩ <;> omega
  · injection h1 with h1; subst h1
    rw [← h2.mat, rd.mat] at h3
    have := fd _ h3; omega
  · rw [exec_append_ok] at he
    obtain ⟨hb, he1, he2⟩ := he
    rw [exec_append_ok] at he1
    obtain ⟨ha, he0, he1⟩ := he1
    have e := hmax h ha hb x hn hK H he0 he1
    rw [(exec_frame he2).2 _ fun hd => by have := hd2 _ hd; omega, e, put_val, if_pos rfl]

theorem ffGood_norm : FFGood (.norm : LSpec T) := fun _ _ _ _ _ _ P =>
  normFF_ok P rfl rfl (fun _ _ => rfl) (fun h => h) (by simp [LSpec.weighted])

theorem ffGood_eNorm : FFGood (.eNorm : LSpec T) := fun _ _ _ _ _ _ P =>
  normFF_ok P rfl rfl (fun _ _ => rfl) (fun h => h) (by simp [LSpec.weighted])

end Godeep
