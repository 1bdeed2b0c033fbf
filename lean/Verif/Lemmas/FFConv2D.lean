import Verif.Lemmas.FFDeconv
/-
  Building the feed-forward part of `Conv2D` layers.
-/
set_option linter.unusedSectionVars false

namespace Godeep
open Spec GoNum

variable {T : Type} [GoNum T]

theorem ofMat_get {val : Ptr → T} {m : Mat} {h : Heap T} (g : GoodMat h m) {idx : List Nat} (hi : InRange m.shape idx) :
    (ofMat val m).get idx = val (cell m idx) := by
  have hk := cell_at g hi
  show (m.ops.map val).getD (offset m.shape idx) zero = _
  rw [List.getD, List.getElem?_map, hk]
  rfl

theorem getOperand_cell {m : Mat} {h : Heap T} (g : GoodMat h m) {idx : List Nat} (hi : InRange m.shape idx) :
    m.getOperand idx = .ok (cell m idx) := getOperand_ok (by rw [g.mul]; simp) hi (cell_at g hi)

/-- the rows of the input used for one row of outputs: made, or made and built -/
def RowSt (w : World T) (row inp ox kw : Nat) (inM : Mat) : Prop :=
  row < w.nodeNext ∧ inp < row ∧ (w.store.nodes row = Store.lazyNode (.sub 1 ox (ox + kw) true inp) [] ∨
    ∃ rowM, Ready w row rowM ∧ rowM.shape = inM.shape.set 1 kw ∧
      ∀ idx, InRange rowM.shape idx → InRange inM.shape (idx.modify 1 (· + ox)) ∧ cell rowM idx = cell inM (idx.modify 1 (· + ox)))

theorem slabFill_in {a : STensor T} {d s e : Nat} {z : T} (hd : d < a.shape.length) (he : e ≤ a.shape.getD d 0) :
    (a.slabFill d s e z).tab = (a.slab d s e).tab := by
  refine tab_iff.2 ⟨rfl, fun idx hi => ?_⟩
  obtain ⟨v, h3, h4, h5, h6⟩ := inRange_set_elim hd hi
  show (if idx.getD d 0 + s < a.shape.getD d 0 then _ else _) = _
  rw [h4, if_pos (by omega)]
  rfl

/-- a new padded sub-tensor inside the source -/
theorem Pend.subIn {w : World T} {n c d s e : Nat} {g : Bool} {sh : List Nat} {f : (Ptr → T) → STensor T}
    {S : Ptr → Prop} {safe : Prop} (p : Pend w c sh f S safe) (hf : ∀ val, (f val).shape = sh)
    (hnd : w.store.nodes n = Store.lazyNode (.sub d s e g c) []) (hlt : n < w.nodeNext) (hc : c < n)
    (hd : d < sh.length) (hse : s < e) (he : e ≤ sh.getD d 0) :
    Pend w n (sh.set d (e - s)) (fun val => (f val).slab d s e) S safe := by
  refine p.one (k := .sub d s e g c) (own := []) hnd hlt hc rfl trivial (by simp) trivial ⟨hd, hse, Or.inr he⟩ ?_ (fun val => ?_)
    (fun _ => ⟨trivial, trivial⟩)
  · intro h; simp only [Kind.straddles] at h; omega
  · have hd' : d < (f val).tab.shape.length := by rw [tab_shape, hf]; exact hd
    have he' : e ≤ (f val).tab.shape.getD d 0 := by rw [tab_shape, hf]; exact he
    refine ⟨_, if_pos ⟨hd', hse, Or.inr he'⟩, ?_⟩
    have := slab_tab (s := s) (tab_tab (f val)) hd' he'
    split
    · rw [slabFill_in hd' he', this]
    · exact this

theorem RowSt.pend {w : World T} {row inp ox kw : Nat} {inM : Mat} (R : RowSt w row inp ox kw inM) (ri : Ready w inp inM)
    (hl : 1 < inM.shape.length) (hk : 0 < kw) (he : ox + kw ≤ inM.shape.getD 1 0) (safe : Prop) :
    Pend w row (inM.shape.set 1 kw) (fun val => (ofMat val inM).slab 1 ox (ox + kw)) (· ∈ inM.ops) safe := by
  obtain ⟨h1, h2, h3⟩ := R
  rcases h3 with h3 | ⟨rowM, r, s, hc⟩
  · have := (ri.pend safe).subIn (fun _ => rfl) h3 h1 h2 hl (by omega) he
    rwa [Nat.add_sub_cancel_left] at this
  · have p := r.pend safe
    refine ⟨p.lt, p.expr, by rw [p.shape, s], p.no, fun val => ?_, fun m hm hf q hq => ?_, p.ok⟩
    · obtain ⟨t, t1, t2⟩ := p.val val
      refine ⟨t, t1, t2.trans (tab_iff.2 ⟨?_, fun idx hi => ?_⟩)⟩
      · show rowM.shape = inM.shape.set 1 (ox + kw - ox)
        rw [s, Nat.add_sub_cancel_left]
      · obtain ⟨c1, c2⟩ := hc idx hi
        rw [ofMat_get r.good hi]
        show _ = (ofMat val inM).get (idx.modify 1 (· + ox))
        rw [ofMat_get ri.good c1, c2]
    · have hq' := p.src m hm hf q hq
      obtain ⟨i, hi, e⟩ := List.getElem_of_mem hq'
      have hi' : i < size rowM.shape := by rw [← r.good.len]; exact hi
      obtain ⟨c1, c2⟩ := hc _ (unflat_inRange hi')
      rw [cell_unflat hi', List.getD_eq_getElem _ _ hi, e] at c2
      rw [c2]
      exact cell_mem ri.good c1

/-- after something that uses the rows has been built -/
theorem RowSt.built {w w' : World T} {row inp ox kw n : Nat} {inM : Mat} {L : Nat → Prop} {C : Ptr → Prop} {new : List (Op T)}
    (R : RowSt w row inp ox kw inM) (ri : Ready w inp inM)
    (hl : 1 < inM.shape.length) (hk : 0 < kw) (he : ox + kw ≤ inM.shape.getD 1 0)
    (G : Grow L C new w w') (B : Built (Reach w.store n) w.store w'.store) (hr : Reach w.store n row) :
    RowSt w' row inp ox kw inM := by
  obtain ⟨h1, h2, h3⟩ := R
  refine ⟨lt_of_lt_of_le h1 G.nodeNext, h2, Or.inr ?_⟩
  rcases h3 with h3 | ⟨rowM, r, s, hc⟩
  · have kn : (w.store.nodes row).kind = .sub 1 ox (ox + kw) true inp := by rw [h3]; rfl
    have hb : (w.store.nodes row).built = false := by rw [h3]; rfl
    obtain ⟨d1, d2⟩ := B.done row hr
    obtain ⟨h0, c0, f, hrun, hm, _, _, hg⟩ := B.ran row hr hb
    have mi : (w'.store.nodes inp).mat = inM := (ri.grow G).mat
    have hsh := B.shape row hr hb
    rw [kn] at hsh hrun hg
    have hsh' : (w'.store.nodes row).mat.shape = inM.shape.set 1 kw := by
      rw [hsh]
      show (w'.store.nodes inp).mat.shape.set 1 (ox + kw - ox) = _
      rw [mi, Nat.add_sub_cancel_left]
    refine ⟨(w'.store.nodes row).mat, ⟨lt_of_lt_of_le h1 G.nodeNext, rfl, Or.inl d1, d2, ?_, ?_, ?_⟩, hsh', fun idx hi => ?_⟩
    · rw [G.kind row h1, kn]; simpa [Kind.kids] using h2
    · rw [G.kind row h1, kn]; trivial
    · rw [G.kind row h1, kn]; trivial
    · have hi' := hi
      rw [hsh'] at hi'
      obtain ⟨v, v1, v2, v3, v4⟩ := inRange_set_elim hl hi'
      have hfit : (Kind.sub 1 ox (ox + kw) true inp : Kind T).fits fun c => (w'.store.nodes c).mat.shape := by
        refine ⟨?_, by omega, Or.inl rfl⟩
        show 1 < (w'.store.nodes inp).mat.shape.length
        rw [mi]; exact hl
      have hi2 : InRange f.mat.shape idx := by rw [hm]; exact hi
      obtain ⟨_, y2, p, y3, y4⟩ := run_view (idx := idx) (j := idx.modify 1 (· + ox)) (c := inp) hg hfit hrun hi2 (by
        show (if idx.getD 1 0 + ox < (w'.store.nodes inp).mat.shape.getD 1 0 then _ else _) = _
        rw [mi, if_pos (by omega)])
      rw [mi] at y2 y4
      rw [hm, getOperand_cell d2 hi] at y3
      rw [getOperand_cell ri.good y2] at y4
      injection y3 with y3
      injection y4 with y4
      exact ⟨y2, by rw [y3, y4]⟩
  · exact ⟨rowM, r.grow G, s, hc⟩

theorem RowSt.same {w w' : World T} {row inp ox kw : Nat} {inM : Mat} {L : Nat → Prop} {C : Ptr → Prop} {new : List (Op T)}
    (R : RowSt w row inp ox kw inM) (G : Grow L C new w w') (h : w'.store.nodes row = w.store.nodes row) :
    RowSt w' row inp ox kw inM := by
  obtain ⟨h1, h2, h3⟩ := R
  refine ⟨lt_of_lt_of_le h1 G.nodeNext, h2, ?_⟩
  rcases h3 with h3 | ⟨rowM, r, s, hc⟩
  · left; rw [h, h3]
  · exact Or.inr ⟨rowM, r.grow G, s, hc⟩

/-- what one output position adds up -/
def convSum (C kw kh ox oy f : Nat) (x y : STensor T) : T :=
  sum1 ((allIdx [C, kw, kh]).map fun k =>
    mul (x.get [k.getD 0 0, ox + k.getD 1 0, oy + k.getD 2 0]) (y.get (f :: k)))

/-- ... as the tensors built -/
def convExpr (C kw kh ox oy f : Nat) (x y : STensor T) : STensor T :=
  (((x.slab 1 ox (ox + kw)).slab 2 oy (oy + kh)).zip mul ((y.slab 0 f (f + 1)).reshape [C, kw, kh])).reduce sum1

theorem convExpr_get {C H W nf kw kh ox oy f : Nat} {x y : STensor T} (hx : x.shape = [C, H, W]) (hy : y.shape = [nf, C, kw, kh]) :
    (convExpr C kw kh ox oy f x y).get [0] = convSum C kw kh ox oy f x y := by
  unfold convExpr convSum STensor.reduce STensor.flat
  have hs : ((((x.slab 1 ox (ox + kw)).slab 2 oy (oy + kh)).zip mul ((y.slab 0 f (f + 1)).reshape [C, kw, kh])).shape) = [C, kw, kh] := by
    show ((x.shape.set 1 (ox + kw - ox)).set 2 (oy + kh - oy)) = _
    rw [hx, Nat.add_sub_cancel_left, Nat.add_sub_cancel_left]; rfl
  show sum1 _ = _
  rw [hs]
  congr 1
  refine List.map_congr_left fun k hk => ?_
  rw [mem_allIdx] at hk
  obtain ⟨e, k1, k2, k3⟩ := inRange3 hk
  show mul (x.get ((k.modify 2 (· + oy)).modify 1 (· + ox))) (((y.slab 0 f (f + 1)).flat).getD (offset [C, kw, kh] k) zero) = _
  have hsl : (y.slab 0 f (f + 1)).shape = [1, C, kw, kh] := by
    show y.shape.set 0 (f + 1 - f) = _
    rw [hy, Nat.add_sub_cancel_left]; rfl
  have hr : InRange (y.slab 0 f (f + 1)).shape (0 :: k) := by rw [hsl]; exact .cons (by omega) hk
  have hoff : offset (y.slab 0 f (f + 1)).shape (0 :: k) = offset [C, kw, kh] k := by
    rw [hsl]; simp [offset]
  have hflat := flat_getElem? (offset_lt hr)
  rw [unflat_offset hr, hoff] at hflat
  rw [List.getD, hflat, Option.getD_some]
  show _ = mul _ (y.get (f :: k))
  have : (y.slab 0 f (f + 1)).get (0 :: k) = y.get (f :: k) := by
    show y.get ((0 :: k).modify 0 (· + f)) = _
    simp
  rw [this]
  congr 2
  rw [e]
  simp [Nat.add_comm]

theorem convExpr_tab {C H W nf kw kh ox oy f : Nat} {x y x' y' : STensor T} (hx : x.shape = [C, H, W]) (hy : y.shape = [nf, C, kw, kh])
    (ex : x.tab = x'.tab) (ey : y.tab = y'.tab) (h1 : ox + kw ≤ H) (h2 : oy + kh ≤ W) (h3 : f < nf) :
    (convExpr C kw kh ox oy f x y).get [0] = (convExpr C kw kh ox oy f x' y').get [0] := by
  have e1 : ((x.slab 1 ox (ox + kw)).slab 2 oy (oy + kh)).tab = ((x'.slab 1 ox (ox + kw)).slab 2 oy (oy + kh)).tab := by
    refine slab_tab (slab_tab ex (by rw [hx]; simp) (by rw [hx]; exact h1)) ?_ ?_
    · show 2 < (x.shape.set 1 _).length
      rw [hx]; simp
    · show _ ≤ (x.shape.set 1 _).getD 2 0
      rw [hx]; exact h2
  have e2 : ((y.slab 0 f (f + 1)).reshape [C, kw, kh]).tab = ((y'.slab 0 f (f + 1)).reshape [C, kw, kh]).tab :=
    reshape_tab _ (slab_tab ey (by rw [hy]; simp) (by rw [hy]; exact h3))
  have hs : ((x.slab 1 ox (ox + kw)).slab 2 oy (oy + kh)).shape = ((y.slab 0 f (f + 1)).reshape [C, kw, kh]).shape := by
    show ((x.shape.set 1 (ox + kw - ox)).set 2 (oy + kh - oy)) = _
    rw [hx, Nat.add_sub_cancel_left, Nat.add_sub_cancel_left]; rfl
  have := reduce_tab sum1 (zip_tab mul e1 e2 hs)
  exact (tab_iff.1 this).2 [0] (.cons (by decide) .nil)

/-- what one output position of `Conv2D` builds -/
theorem conv_cell {base l inp neta wn row : Nat} {inM wM netaM : Mat} {safe : Prop} {C H W nf kw kh ox y sy f x : Nat} {w : World T}
    (S : AccSep base inM wM netaM) (hnd : netaM.ops.Nodup) (hb : base ≤ w.store.heap.next) (hpos : 0 < w.store.heap.next)
    (ri : Ready w inp inM) (rn : Ready w neta netaM) (rw' : Ready w wn wM) (R : RowSt w row inp ox kw inM)
    (ho : InRange netaM.shape [f, x, y]) (si : inM.shape = [C, H, W]) (sw : wM.shape = [nf, C, kw, kh]) (hf : f < nf)
    (hkw : 0 < kw) (hkh : 0 < kh) (hx : ox + kw ≤ H) (hy : y * sy + kh ≤ W) (hs : safe → 0 < C) :
    wp True (LayerM.convCell wn neta row kw kh sy C f x y : Run T Unit)
      (fun _ w' => (Ready w' inp inM ∧ Ready w' neta netaM ∧ Ready w' wn wM ∧ 0 < w'.store.heap.next ∧ RowSt w' row inp ox kw inM) ∧
        AccStep l inM wM netaM (addAt [f, x, y] (convSum C kw kh ox (y * sy) f)) safe w w') w := by
  unfold LayerM.convCell
  set oy := y * sy with hoy
  refine wp_bind (wp_lazy (L := (· = l)) (C := fun _ => False) fun w1 g1 l1 h1 x1 nd1 k1 => ?_)
  refine wp_bind (wp_lazy (L := (· = l)) (C := fun _ => False) fun w2 g2 l2 h2 x2 nd2 k2 => ?_)
  refine wp_bind (wp_reshape (L := (· = l)) (C := fun _ => False) fun w3 g3 l3 h3 x3 nd3 k3 => ?_)
  refine wp_bind (wp_lazy (L := (· = l)) (C := fun _ => False) fun w4 g4 l4 h4 x4 nd4 k4 => ?_)
  refine wp_bind (wp_lazy (L := (· = l)) (C := fun _ => False) fun w5 g5 l5 h5 x5 nd5 k5 => ?_)
  have G := (((g1.trans g2).trans g3).trans g4).trans g5
  simp only [List.append_nil] at G
  have e2 : w1.nodeNext = w.nodeNext + 1 := x1
  have e3 : w2.nodeNext = w.nodeNext + 2 := by omega
  have e4 : w3.nodeNext = w.nodeNext + 3 := by omega
  have e5 : w4.nodeNext = w.nodeNext + 4 := by omega
  rw [e2] at nd2 k2
  rw [e3] at nd3 k3
  rw [e4] at nd4 k4
  rw [e5] at nd5 k5 ⊢
  rw [e2] at nd3
  rw [e3] at nd4
  rw [e4] at nd5
  set n0 := w.nodeNext with hn0
  have N0 : w5.store.nodes n0 = Store.lazyNode (.sub 2 oy (oy + kh) true row) [] := by
    rw [k5 _ (by omega), k4 _ (by omega), k3 _ (by omega), k2 _ (by omega), nd1]
  have N1 : w5.store.nodes (n0 + 1) = Store.lazyNode (.sub 0 f (f + 1) false wn) [] := by
    rw [k5 _ (by omega), k4 _ (by omega), k3 _ (by omega), nd2]
  have N2 : w5.store.nodes (n0 + 2) = Store.lazyNode (.reshape (n0 + 1)) [C, kw, kh] := by
    rw [k5 _ (by omega), k4 _ (by omega), nd3]
  have N3 : w5.store.nodes (n0 + 3) = Store.lazyNode (.op2 .mul n0 (n0 + 2)) [] := by
    rw [k5 _ (by omega), nd4]
  have N4 : w5.store.nodes (n0 + 4) = Store.lazyNode (.math .sum (n0 + 3)) [] := nd5
  have K : ∀ n, n < n0 → w5.store.nodes n = w.store.nodes n := fun n hn => by
    rw [k5 _ (by omega), k4 _ (by omega), k3 _ (by omega), k2 _ (by omega), k1 _ (by omega)]
  have top : w5.nodeNext = n0 + 5 := by omega
  have hh : w5.store.heap = w.store.heap := by rw [h5, h4, h3, h2, h1]
  have R5 : RowSt w5 row inp ox kw inM := R.same G (K row R.1)
  have ri5 := ri.grow G
  have rn5 := rn.grow G
  have rw5 := rw'.grow G
  have hrow : row < n0 := R.1
  have hwn : wn < n0 := rw'.lt
  have pr := R5.pend ri5 (by rw [si]; simp) hkw (by rw [si]; exact hx) safe
  rw [si] at pr
  have pc : Pend w5 n0 [C, kw, kh] (fun val => ((ofMat val inM).slab 1 ox (ox + kw)).slab 2 oy (oy + kh)) (· ∈ inM.ops) safe := by
    have := pr.subIn (fun val => by show inM.shape.set 1 (ox + kw - ox) = _; rw [si, Nat.add_sub_cancel_left])
      N0 (by omega) hrow (by simp) (show oy < oy + kh by omega) hy
    rw [Nat.add_sub_cancel_left] at this
    exact this
  have p1 : Pend w5 (n0 + 1) [1, C, kw, kh] (fun val => (ofMat val wM).slab 0 f (f + 1)) (· ∈ wM.ops) safe := by
    have := (rw5.pend safe).subIn (fun _ => rfl) N1 (by omega) (by omega) (by rw [sw]; simp) (Nat.lt_succ_self f)
      (by rw [sw]; exact hf)
    rw [sw, Nat.add_sub_cancel_left] at this
    exact this
  have p2 : Pend w5 (n0 + 2) [C, kw, kh] (fun val => ((ofMat val wM).slab 0 f (f + 1)).reshape [C, kw, kh]) (· ∈ wM.ops) safe := by
    refine p1.one (k := .reshape (n0 + 1)) (own := [C, kw, kh]) N2 (by omega) (by omega) rfl trivial (by simp) trivial trivial
      (by simp [Kind.straddles]) (fun val => ?_) (fun _ => ⟨trivial, trivial⟩)
    exact ⟨_, rfl, reshape_tab _ (tab_tab _)⟩
  have hshc : ∀ val : Ptr → T, (((ofMat val inM).slab 1 ox (ox + kw)).slab 2 oy (oy + kh)).shape = [C, kw, kh] := fun val => by
    show ((inM.shape.set 1 (ox + kw - ox)).set 2 (oy + kh - oy)) = _
    rw [si, Nat.add_sub_cancel_left, Nat.add_sub_cancel_left]; rfl
  have p3 : Pend w5 (n0 + 3) [C, kw, kh] (fun val => (((ofMat val inM).slab 1 ox (ox + kw)).slab 2 oy (oy + kh)).zip mul
      (((ofMat val wM).slab 0 f (f + 1)).reshape [C, kw, kh])) (fun q => q ∈ inM.ops ∨ q ∈ wM.ops) safe := by
    refine Pend.node (k := .op2 .mul n0 (n0 + 2)) (own := []) (sh := fun _ => [C, kw, kh])
      (F := fun i val => if i = n0 then ((ofMat val inM).slab 1 ox (ox + kw)).slab 2 oy (oy + kh) else
        ((ofMat val wM).slab 0 f (f + 1)).reshape [C, kw, kh]) N3 (by omega) ?_ ?_ trivial (by simp) trivial rfl
      (by simp [Kind.straddles]) (fun val => ?_) (fun _ => ⟨trivial, trivial⟩)
    · intro c hc
      simp only [Kind.kids, List.mem_cons, List.not_mem_nil, or_false] at hc
      omega
    · intro c hc
      simp only [Kind.kids, List.mem_cons, List.not_mem_nil, or_false] at hc
      rcases hc with rfl | rfl
      · simp only [if_true]
        exact pc.mono (fun q hq => Or.inl hq) id
      · have : ¬ n0 + 2 = n0 := by omega
        simp only [if_neg this]
        exact p2.mono (fun q hq => Or.inr hq) id
    · have hne : ¬ n0 + 2 = n0 := by omega
      simp only [Kind.den, if_true, if_neg hne, tab_shape]
      rw [hshc val]
      refine ⟨_, if_pos rfl, zip_tab _ (tab_tab _) (tab_tab _) ?_⟩
      rw [tab_shape, tab_shape, hshc val]; rfl
  have p4 : Pend w5 (n0 + 4) [1] (fun val => convExpr C kw kh ox oy f (ofMat val inM) (ofMat val wM))
      (fun q => q ∈ inM.ops ∨ q ∈ wM.ops) safe := by
    refine p3.one (k := .math .sum (n0 + 3)) (own := []) N4 (by omega) (by omega) rfl trivial (by simp) trivial trivial
      (by simp [Kind.straddles]) (fun val => ?_) (fun h => ⟨?_, trivial⟩)
    · exact ⟨_, rfl, reduce_tab _ (tab_tab _)⟩
    · show size [C, kw, kh] ≠ 0
      have := hs h
      simp only [size, List.prod_cons, List.prod_nil]
      positivity
  refine wp_bind (wp_build (L := (· = l)) (C := fun _ => False) p4 (by rw [hh]; exact hpos) fun w6 new m B => ?_)
  have G6 := G.trans B.grow
  simp only [List.nil_append] at G6
  have hreach : Reach w5.store (n0 + 4) row := by
    refine .step (c := n0 + 3) (by rw [N4]; rfl) (by rw [N4]; exact List.mem_singleton.2 rfl) ?_
    refine .step (c := n0) (by rw [N3]; rfl) (by rw [N3]; exact List.mem_cons_self) ?_
    exact .step (c := row) (by rw [N0]; rfl) (by rw [N0]; exact List.mem_singleton.2 rfl) (.refl _)
  have R6 : RowSt w6 row inp ox kw inM := R5.built ri5 (by rw [si]; simp) hkw (by rw [si]; exact hx) B.grow B.built hreach
  have rn6 := rn5.grow B.grow
  refine wp_bind (wp_operand rn6 ho fun pn hpn mn => ?_)
  have sm : m.shape = [1] := B.shape
  refine wp_bind (wp_operandAt B.ready (by rw [sm]; decide) fun ps hps ms => ?_)
  refine wp_push (L := (· = l)) (C := fun _ => False) fun w7 g7 h7 l7 x7 nn7 => ?_
  have G7 := G6.trans g7
  have hpn' : pn = cell netaM [f, x, y] := by
    have := cell_at rn.good ho
    rw [hpn] at this; injection this
  subst hpn'
  have hi0 : InRange m.shape [0] := by rw [sm]; exact .cons (by decide) .nil
  have hps' : ps = cell m [0] := by
    have := cell_at B.ready.good hi0
    rw [sm] at this
    change m.ops[0]? = _ at this
    rw [hps] at this; injection this
  subst hps'
  have co := S.neta _ mn
  have n5 : w5.store.heap.next = w.store.heap.next := by rw [hh]
  have n6 := B.grow.next
  have n7 : w7.store.heap.next = w6.store.heap.next := by rw [h7]
  refine ⟨⟨ri.grow G7, rn.grow G7, rw'.grow G7, by omega, R6.same g7 (by rw [nn7])⟩, _, G7, by rw [l7, B.layers, l5, l4, l3, l2, l1],
    fun q q1 q2 => ?_, ?_, ?_, ?_⟩
  · rw [h7]; exact B.zero q (by omega) (by omega)
  · intro q hq
    rw [dsts_append, List.mem_append] at hq
    rcases hq with hq | hq
    · have := B.dst q hq; left; omega
    · simp only [dsts_asg, dsts_nil, List.mem_cons, List.not_mem_nil, or_false] at hq
      subst hq; exact Or.inr mn
  · intro h h' xv yv v hn hz hxv hyv hv he idx hidx
    obtain ⟨hm, he1, he2⟩ := exec_append_ok.1 he
    obtain ⟨u, hu, rfl⟩ := exec_asg1 he2
    have e2 : u = add (hm.val (cell netaM [f, x, y])) (hm.val (cell m [0])) := arith_eval (o := .add) hu
    obtain ⟨f1, f2⟩ := exec_frame he1
    have keep : ∀ i, InRange netaM.shape i → hm.val (cell netaM i) = v i := fun i hi => by
      rw [f2 _ fun hd => ?_, hv i hi]
      have := B.dst _ hd
      have := S.neta _ (cell_mem rn.good hi)
      omega
    have Hm := B.run h hm (by omega) (fun q q1 q2 q3 => hz q (by omega) (by omega) fun hd => by
      rw [dsts_append, List.mem_append] at hd
      rcases hd with hd | hd
      · exact q3 hd
      · simp only [dsts_asg, dsts_nil, List.mem_cons, List.not_mem_nil, or_false] at hd
        subst hd; omega) he1
    have hsum : hm.val (cell m [0]) = convSum C kw kh ox oy f xv yv := by
      rw [holds_cell Hm hi0]
      show (convExpr C kw kh ox oy f (ofMat h.val inM) (ofMat h.val wM)).get [0] = _
      rw [convExpr_tab si sw (ofMat_tab hxv) (ofMat_tab hyv) hx hy hf,
        convExpr_get (hxv.shape.symm.trans si) (hyv.shape.symm.trans sw)]
    rw [put_val]
    unfold addAt
    by_cases hi : idx = [f, x, y]
    · subst hi; rw [if_pos rfl, if_pos rfl, e2, keep _ hidx, hsum]
    · rw [if_neg (fun h' => hi (cell_inj rn.good hnd hidx ho h')), if_neg hi, keep idx hidx]
  · intro hsafe o' ho'
    rcases List.mem_append.1 ho' with ho' | ho'
    · exact B.fine hsafe o' ho'
    · simp only [List.mem_cons, List.not_mem_nil, or_false] at ho'
      subst ho'
      have p1 := (rn.good.valid _ mn).1
      have p2 := (B.ready.good.valid _ ms).1
      refine ⟨p1, ?_, trivial, trivial⟩
      simp only [Rhs.reads, List.mem_cons, List.not_mem_nil, or_false, forall_eq_or_imp, forall_eq]
      exact ⟨p1, p2⟩

theorem conv_value {nf C H W kw kh sx sy a b : Nat} {act : T → T} {x wv bv : STensor T} (hx : x.shape = [C, H, W])
    {idx : List Nat} (hi : InRange [nf, a, b] idx) :
    (convFn act kw kh sx sy wv bv x).get idx = act ((List.range nf).foldl (fun v f =>
      (List.range a).foldl (fun v px => (List.range b).foldl (fun v py => addAt [f, px, py]
          (convSum C kw kh (px * sx) (py * sy) f) x wv v) v) v) bv.get idx) := by
  unfold convFn
  simp only [hx]
  congr 1
  let F : (List Nat → T) → List Nat → (List Nat → T) := fun v k i =>
    if i = [k.getD 0 0, k.getD 1 0, k.getD 2 0] then
      add (v i) (convSum C kw kh (k.getD 1 0 * sx) (k.getD 2 0 * sy) (k.getD 0 0) x wv) else v i
  have e : (allIdx [nf, a, b]).foldl F bv.get = (List.range nf).foldl (fun v f =>
      (List.range a).foldl (fun v px => (List.range b).foldl (fun v py => addAt [f, px, py]
          (convSum C kw kh (px * sx) (py * sy) f) x wv v) v) v) bv.get := by
    simp only [← foldl_allIdx]
    rfl
  rw [← e]
  show _ = (allIdx [nf, a, b]).foldl (fun v k i => if i = _ then add (v i) _ else v i) bv.get idx
  rw [foldl_point]
  have hfil : ((allIdx [nf, a, b]).filter fun k => idx = [k.getD 0 0, k.getD 1 0, k.getD 2 0]) = [idx] := by
    have hmem := mem_allIdx.2 hi
    have h1 : ((allIdx [nf, a, b]).filter fun k => idx = [k.getD 0 0, k.getD 1 0, k.getD 2 0]) =
        (allIdx [nf, a, b]).filter (· == idx) := by
      refine List.filter_congr fun k hk => ?_
      have hk' := (inRange3 (mem_allIdx.1 hk)).1
      rw [← hk', Bool.eq_iff_iff, decide_eq_true_eq, beq_iff_eq]
      exact eq_comm
    rw [h1, List.filter_beq, List.count_eq_one_of_mem (nodup_allIdx _) hmem]
    rfl
  rw [hfil]
  show add _ _ = add _ _
  rfl

theorem ffGood_conv (nf kw kh sx sy : Nat) (act : Activation T) : FFGood (.conv nf kw kh sx sy act : LSpec T) := by
  intro w fuel l p inp inM P
  obtain ⟨h3, hs1, hs2, hk1, hk2, hle1, hle2, hlt1, hlt2⟩ := P.fits
  obtain ⟨C, H, W, hsh⟩ : ∃ a b c, inM.shape = [a, b, c] := ⟨_, _, _, shape3 h3⟩
  show wp True (LayerM.convFF nf kw kh sx sy l) _ w
  unfold LayerM.convFF
  refine wp_bind (wp_layer ?_)
  simp only [P.input]
  refine wp_bind (wp_mat ?_)
  rw [P.rin.mat]
  have e3 : ¬ inM.shape.length ≠ 3 := by omega
  rw [if_neg e3]
  rw [hsh] at hle1 hle2 hlt1 hlt2
  simp only [List.getD_cons_zero, List.getD_cons_succ] at hle1 hle2 hlt1 hlt2
  have s1 : subU H kw = H - kw := by unfold subU; omega
  have s2 : subU W kh = W - kh := by unfold subU; omega
  rw [hsh]
  simp only [List.getD_cons_zero, List.getD_cons_succ]
  rw [s1, s2]
  refine wp_bind (wp_lift (a := (H - kw) / sx) (by simp [divU]; omega) ?_)
  refine wp_bind (wp_lift (a := (W - kh) / sy) (by simp [divU]; omega) ?_)
  refine wp_convAlloc (l := l) P.pos fun neta bias wn netaM bM wM w5 M => ?_
  have dis : ∀ q ∈ netaM.ops, q ∉ bM.ops := fun q hq => (M.fneta q hq).2.1
  have hlen : bM.ops.length = netaM.ops.length := by rw [M.rb.good.len, M.rneta.good.len, M.sb, M.sneta]
  refine wp_bind (wp_transfer (L := (· = l)) (C := fun _ => False) M.rb M.rneta hlen M.ndneta dis fun w6 t1 g6 l6 h6 d6 f6 r6 => ?_)
  have CT : Copies bM netaM t1 := ⟨d6, f6, r6⟩
  have n5 := M.grow.next
  have n7 : w6.store.heap.next = w5.store.heap.next := by rw [h6]
  have hin : ∀ q ∈ inM.ops, q < w.store.heap.next := fun q hq => (P.rin.good.valid q hq).2
  have S : AccSep w5.store.heap.next inM wM netaM := by
    refine ⟨fun q hq => ⟨?_, fun h => ?_⟩, fun q hq => ⟨(M.rw.good.valid q hq).2, fun h => (M.fneta q h).2.2 hq⟩,
      fun q hq => (M.rneta.good.valid q hq).2⟩
    · have := hin q hq; omega
    · have := hin q hq; have := (M.fneta q h).1; omega
  have gI := M.grow.trans g6
  let I : World T → Prop := fun w => Ready w inp inM ∧ Ready w neta netaM ∧ Ready w wn wM ∧ 0 < w.store.heap.next
  have hI : I w6 := ⟨P.rin.grow gI, M.rneta.grow g6, M.rw.grow g6, by have := P.pos; omega⟩
  refine wp_bind (wp_mono (wp_accLoop (l := l) (safe := LSpec.safe (.conv nf kw kh sx sy act : LSpec T) inM.shape) S I (by omega) hI fun f hF wa ba Ia =>
    wp_accLoop (l := l) (g := fun px x y v => (List.range ((W - kh) / sy + 1)).foldl (fun v py => addAt [f, px, py]
      (convSum C kw kh (px * sx) (py * sy) f) x y v) v) S I ba Ia fun px hpx wb bb Ib => ?_) ?_)
  · have h1 : px * sx ≤ H - kw := le_trans (Nat.mul_le_mul_right _ (Nat.le_of_lt_succ hpx)) (Nat.div_mul_le_self _ _)
    refine wp_bind (wp_lazy (L := (· = l)) (C := fun _ => False) fun wc gc lc hc xc ndc kc => ?_)
    have Ic : I wc := ⟨Ib.1.grow gc, Ib.2.1.grow gc, Ib.2.2.1.grow gc, by rw [hc]; exact Ib.2.2.2⟩
    have Rc : RowSt wc wb.nodeNext inp (px * sx) kw inM := ⟨by omega, Ib.1.lt, Or.inl ndc⟩
    refine wp_mono (wp_accLoop (l := l) (safe := LSpec.safe (.conv nf kw kh sx sy act : LSpec T) inM.shape)
      (g := fun py => addAt [f, px, py] (convSum C kw kh (px * sx) (py * sy) f)) S (fun w => I w ∧ RowSt w wb.nodeNext inp (px * sx) kw inM) (by rw [hc]; exact bb) ⟨Ic, Rc⟩ fun py hpy wd bd Id => ?_) ?_
    · have h2 : py * sy ≤ W - kh := le_trans (Nat.mul_le_mul_right _ (Nat.le_of_lt_succ hpy)) (Nat.div_mul_le_self _ _)
      refine wp_mono (conv_cell (l := l) (safe := LSpec.safe (.conv nf kw kh sx sy act : LSpec T) inM.shape) S M.ndneta bd Id.1.2.2.2 Id.1.1 Id.1.2.1 Id.1.2.2.1 Id.2 (by rw [M.sneta]; exact mk3 hF hpx hpy) hsh M.sw hF
        hk1 hk2 (by omega) (by omega) (fun hs => ?_)) ?_
      · rcases hs with hs | hs
        · rw [hsh] at hs; exact hs
        · omega
      · rintro _ w' ⟨⟨a1, a2, a3, a4, a5⟩, A⟩
        exact ⟨⟨⟨a1, a2, a3, a4⟩, a5⟩, A⟩
    · rintro _ w' ⟨⟨I', _⟩, ops, ga, la, za, Aa⟩
      refine ⟨I', ops, ?_, by rw [la, lc], fun q q1 q2 => za q (by rw [hc]; exact q1) q2, ?_⟩
      · have := gc.trans ga
        simpa using this
      · rw [hc] at Aa; exact Aa
  · rintro _ w8 ⟨_, A⟩
    rw [P.act]
    refine wp_convDone P.pos hin M g6 (by rw [l6]) (by rw [h6]) CT A ?_ ?_ ?_ ?_ (by simp) P.refb.1
    · simp [LSpec.outShape, hsh]
    · simp [LSpec.paramShapes, hsh]
    · intro x wv bv hx _ hb
      refine ⟨hb, fun idx hi => ?_⟩
      exact conv_value (by rw [hx, hsh]) hi
    · intro x wv bv hx _ hb
      refine ⟨hb, fun idx hi => ?_⟩
      exact conv_value (act := id) (by rw [hx, hsh]) hi

end Godeep
