import Verif.Lemmas.JStep
/-
  `Compile` of the next of the models that `FromModels` joins.
-/
set_option linter.unusedSectionVars false

namespace Godeep
open Spec GoNum

variable {T : Type} [GoNum T]

/-- the parts of the compiled models after one more -/
def CData.join (d : CData T) (n b : Nat) (ops : List (Op T)) (out : Nat) (outM : Mat) (K : Ptr → T → Prop) (w1 w2 w' : World T) : CData T :=
  ⟨d.b, d.inp, d.inM, d.ops ++ ops, out, outM, d.ps ++ [] :: (List.range n).map (fun k => layerParams w' (b + 1 + k)), fun q c => d.K q c ∨ K q c,
    d.lo, w2.store.heap.next, fun q => d.own q ∨ ∃ k < n, ownCell w1 (b + 1 + k) q⟩

theorem JInv.chained {w0 : World T} {shape : List Nat} {L : List (LSpec T)} {d : CData T} {m0 mz : Nat} {done : List (Nat × List (Op T))}
    {ls : List (LSpec T)} {m : Nat} {rest : List (List (LSpec T) × Nat)} {w w1 w2 w' : World T}
    (J : JInv w0 shape L d m0 mz done ((ls, m) :: rest) w) (hne : ls ≠ []) {ops : List (Op T)} {out : Nat} {outM : Mat} {K : Ptr → T → Prop}
    (R : LinkRun (outShapes L shape) ls m (d.b + L.length + 1) (d.b + L.length) d.out d.outM ops out outM K w w1 w2 w') :
    Chained shape (L ++ linkSpec (outShapes L shape) :: ls) (d.join ls.length (d.b + L.length + 1) ops out outM K w1 w2 w') w' := by
  obtain ⟨x01, x2', x0', hval, hlay, hln, hnn, hsame, hkp⟩ := R.apart
  have M := J.made hne
  obtain ⟨t1, t2⟩ := J.todos
  have hx := Todos.next t2
  have A := R.all
  obtain ⟨b, hb⟩ : ∃ b, b = d.b + L.length + 1 := ⟨_, rfl⟩
  have x12 : Ext w1 w2 := A.grow.ext
  have hlen : (L ++ linkSpec (outShapes L shape) :: ls).length = L.length + 1 + ls.length := by simp; omega
  have hold : ∀ l, l < b → w'.layers l = w.layers l := fun l hl => hlay l (by omega)
  have hpar1 : ∀ k < L.length, layerParams w' (d.b + 1 + k) = layerParams w (d.b + 1 + k) := fun k hk =>
    layerParams_ext x0' (by rw [hold _ (by omega)]) (by rw [hold _ (by omega)]) (J.pready k hk)
  have hparb : layerParams w' b = [] := by
    have := A.wn
    rw [← hb] at this
    unfold layerParams
    rw [R.layers, this.1]
  have hpar2 : ∀ k < ls.length, layerParams w' (b + 1 + k) = layerParams w2 (b + 1 + k) := fun k hk =>
    layerParams_ext x2' (by rw [R.layers]) (by rw [R.layers]) (by rw [hb]; exact A.pready k hk)
  have hps2 : ((List.range ls.length).map fun k => layerParams w' (b + 1 + k)) = (List.range ls.length).map fun k => layerParams w2 (b + 1 + k) :=
    List.map_congr_left fun k hk => hpar2 k (List.mem_range.1 hk)
  have hidx : ∀ k, k < L.length + 1 + ls.length → k < L.length ∨ (k = L.length ∧ d.b + 1 + k = b) ∨
      ∃ j < ls.length, k = L.length + 1 + j ∧ d.b + 1 + k = b + 1 + j := fun k hk => by
    rcases Nat.lt_trichotomy k L.length with h | h | h
    · exact Or.inl h
    · exact Or.inr (Or.inl ⟨h, by omega⟩)
    · exact Or.inr (Or.inr ⟨k - L.length - 1, by omega, by omega, by omega⟩)
  have hown2 : ∀ q, (∃ k < ls.length, ownCell w1 (b + 1 + k) q) → q < d.lo ∧ q ∉ d.inM.ops ∧ ¬ d.own q ∧ w0.store.heap.next ≤ q := by
    rintro q ⟨k, hk, hq⟩
    obtain ⟨_, _, _, e⟩ := hsame (b + 1 + k)
    have hq' : ownCell w (b + 1 + k) q := by
      have := t1.at hk
      rw [← hb] at this
      exact (this.own_ext x01 e q).1 hq
    exact (J.sep (b + 1 + k) (by omega) (by omega) q hq').1
  have hwin : d.hi ≤ w1.store.heap.next := le_trans J.hi.2 x01.next
  unfold CData.join
  rw [← hb]
  refine ⟨lt_of_lt_of_le J.pos x0'.next, J.rin.ext x0', J.ishape, J.nodup, A.ready.ext x2', ?_, ⟨?_, fun k hk => ?_⟩, ?_, fun k hk n h => ?_,
    fun k s hs => ?_, ?_, ⟨?_, x2'.next⟩, ?_, J.inlt, ?_, fun k hk => ?_, ?_, ?_⟩ <;> try simp only
  · rw [A.oshape, outShapes_app]
    show _ = outShapes ls ((linkSpec (outShapes L shape) : LSpec T).outShape (outShapes L shape))
    rw [linkSpec_out]
  · rw [(hkp _).2]; exact J.chain.first
  · rw [(hkp _).2]
    rw [hlen] at hk
    rcases hidx k hk with h | ⟨h, h'⟩ | ⟨j, hj, h, h'⟩
    · exact J.chain.pre k h
    · rw [h', hb, t1.pre, h]; simp
    · have := (t1.at hj).pre
      rw [← hb] at this
      rw [h', this]; congr 1; omega
  · rw [hlen, range_split, show d.b + 1 + L.length = b by omega, hparb, J.par]
    congr 1
    · exact List.map_congr_left fun k hk => (hpar1 k (List.mem_range.1 hk)).symm
    · congr 1
      refine List.map_congr_left fun k hk => ?_
      rw [show b + 1 + k = d.b + 1 + (L.length + 1 + k) by omega]
  · rw [hlen] at hk
    simp only at h
    rcases hidx k hk with h1 | ⟨h1, h'⟩ | ⟨j, hj, h1, h'⟩
    · rw [hold _ (by omega)] at h
      obtain ⟨a, ra, nd⟩ := J.pready k h1 n h
      exact ⟨a, ra.ext x0', nd⟩
    · rw [h', R.layers] at h
      have := A.wn
      rw [← hb] at this
      rw [this.1, this.2] at h
      simp at h
    · rw [h', R.layers] at h
      rw [hb] at h
      obtain ⟨a, ra, nd⟩ := A.pready j hj n h
      exact ⟨a, ra.ext x2', nd⟩
  · have hk := (List.getElem?_eq_some_iff.1 hs).1
    rw [hlen] at hk
    rcases hidx k hk with h1 | ⟨h1, h'⟩ | ⟨j, hj, h1, h'⟩
    · rw [List.getElem?_append_left h1] at hs
      rw [hpar1 k h1, List.take_append_of_le_length (by omega)]
      exact J.pshape k s hs
    · subst h1
      simp at hs
      rw [h', hparb, ← hs]
      rfl
    · have hs' : ls[j]? = some s := by
        rw [h1, List.getElem?_append_right (by omega), show L.length + 1 + j - L.length = j + 1 by omega] at hs
        simpa using hs
      have := A.pshape j s hs'
      rw [← hb] at this
      have ht : (L ++ linkSpec (outShapes L shape) :: ls).take (L.length + 1 + j) = L ++ linkSpec (outShapes L shape) :: ls.take j := by
        rw [List.take_append, show L.length + 1 + j - L.length = j + 1 by omega, List.take_succ_cons,
          List.take_of_length_le (l := L) (by omega)]
      rw [h', hpar2 j hj, this, h1, ht, outShapes_app]
      show _ = s.paramShapes (outShapes (ls.take j) ((linkSpec (outShapes L shape) : LSpec T).outShape (outShapes L shape)))
      rw [linkSpec_out]
  · have S1 := J.stage.mono (hi' := w1.store.heap.next) (own' := d.own) (F' := netFn L) (s' := Safe L shape) hwin (fun _ h => h) (fun _ _ _ => rfl) (fun h => h)
    have S2 := S1.comp (Stage.link w1.store.heap.next d.outM J.oshape) (le_trans J.hi.1 hwin) (le_refl _) (fun q hq => (J.own q hq).1) (fun _ h => h.elim)
    have SA := A.stage
    rw [← hb] at SA
    have S3 := S2.comp SA (le_trans J.hi.1 hwin) x12.next (fun q hq => by
      rcases hq with hq | hq
      · exact (J.own q hq).1
      · exact hq.elim) (fun q hq => (hown2 q hq).1)
    rw [hps2]
    have e1 : d.ops ++ ops = d.ops ++ [] ++ ops := by simp
    have e2 : d.ps ++ [] :: (List.range ls.length).map (fun k => layerParams w2 (b + 1 + k)) =
        d.ps ++ [[]] ++ (List.range ls.length).map (fun k => layerParams w2 (b + 1 + k)) := by simp
    rw [e1, e2]
    have hdl : d.ps.length = L.length := by rw [J.par]; simp
    have S4 := S3.mono (hi' := w2.store.heap.next) (own' := fun q => d.own q ∨ ∃ k < ls.length, ownCell w1 (b + 1 + k) q)
      (F' := netFn (L ++ linkSpec (outShapes L shape) :: ls)) (s' := Safe (L ++ linkSpec (outShapes L shape) :: ls) shape) (le_refl _) ?_ ?_ ?_
    · refine ⟨S4.dst, S4.out, S4.par, S4.opar, fun q c hq => S4.keep q c ?_, fun h h' x pv hn hK => S4.run h h' x pv hn fun q c hq => hK q c ?_, S4.fine⟩
      · rcases hq with hq | hq
        · exact Or.inl (Or.inl hq)
        · exact Or.inr hq
      · rcases hq with (hq | hq) | hq
        · exact Or.inl hq
        · exact hq.elim
        · exact Or.inr hq
    · rintro q ((hq | hq) | hq)
      · exact Or.inl hq
      · exact hq.elim
      · exact Or.inr hq
    · intro pv x hpv
      simp only [List.length_append, List.length_singleton, List.length_map, List.length_range, hdl] at hpv ⊢
      rw [netFn_app x (by omega), show linkSpec (outShapes L shape) :: ls = [linkSpec (outShapes L shape)] ++ ls from rfl, netFn_app _ (by simp; omega)]
      rw [List.length_singleton, List.drop_drop, List.take_take, List.drop_take, show min L.length (L.length + 1) = L.length by omega,
        show L.length + 1 - L.length = 1 by omega]
    · rw [safe_app]
      rintro ⟨h1, _, h2⟩
      rw [linkSpec_out] at h2
      exact ⟨⟨h1, trivial⟩, h2⟩
  · exact le_trans (le_trans J.hi.1 hwin) x12.next
  · rintro q (hq | hq)
    · exact J.own q hq
    · obtain ⟨a1, a2, _⟩ := hown2 q hq
      exact ⟨a1, a2⟩
  · rintro q c (hq | hq)
    · have := (J.stage.keep q c hq).2.1
      rw [hval q (lt_of_lt_of_le this J.hi.2) fun e => J.kref c (by rw [← e]; exact hq)]
      exact J.kept q c hq
    · obtain ⟨_, k2, _⟩ := A.stage.keep q c hq
      rw [show w'.store.heap.val q = w2.store.heap.val q from R.fin.val q k2 (fun h => h)]
      exact A.kept q c hq
  · rw [hlen] at hk
    rcases Nat.lt_or_ge k (L.length + 1) with h | h
    · rw [hold _ (by omega)]; exact J.both k (by omega)
    · have := A.both (k - L.length - 1) (by omega)
      rw [show d.b + L.length + 1 + (k - L.length - 1) = d.b + k by omega] at this
      rw [R.layers]; exact this
  · rw [hold _ (by omega)]; exact J.wn
  · rw [hps2]
    have hA := A.pdist
    rw [← hb] at hA
    rw [List.flatten_append, List.flatMap_append, List.flatten_cons, List.nil_append]
    refine List.nodup_append.2 ⟨J.pdist, hA, ?_⟩
    rintro x hx y hy rfl
    obtain ⟨m1, hm1, hx1⟩ := List.mem_flatMap.1 hx
    obtain ⟨p1, hp1, hmp1⟩ := List.mem_flatten.1 hm1
    obtain ⟨m2, hm2, hx2⟩ := List.mem_flatMap.1 hy
    obtain ⟨p2, hp2, hmp2⟩ := List.mem_flatten.1 hm2
    have h1 := J.stage.par p1 hp1 m1 hmp1 x hx1
    have h2 := A.stage.par p2 (by rw [← hb]; exact hp2) m2 hmp2 x hx2
    omega

theorem JInv.step {w0 : World T} {shape : List Nat} {L : List (LSpec T)} {d : CData T} {m0 mz : Nat} {done : List (Nat × List (Op T))}
    {ls : List (LSpec T)} {m : Nat} {rest : List (List (LSpec T) × Nat)} {w w1 w2 w' : World T}
    (J : JInv w0 shape L d m0 mz done ((ls, m) :: rest) w) (hne : ls ≠ []) {ops : List (Op T)} {out : Nat} {outM : Mat} {K : Ptr → T → Prop}
    (R : LinkRun (outShapes L shape) ls m (d.b + L.length + 1) (d.b + L.length) d.out d.outM ops out outM K w w1 w2 w') :
    JInv w0 shape (L ++ linkSpec (outShapes L shape) :: ls) (d.join ls.length (d.b + L.length + 1) ops out outM K w1 w2 w') m0 m
      (done ++ [(m, ops)]) rest w' := by
  obtain ⟨x01, x2', x0', hval, hlay, hln, hnn, hsame, hkp⟩ := R.apart
  have C := J.chained hne R
  obtain ⟨t1, t2⟩ := J.todos
  have hx := Todos.next t2
  have A := R.all
  have hpos : 0 < ls.length := List.length_pos_iff.2 hne
  obtain ⟨b, hb⟩ : ∃ b, b = d.b + L.length + 1 := ⟨_, rfl⟩
  have x12 : Ext w1 w2 := A.grow.ext
  have hlen : (L ++ linkSpec (outShapes L shape) :: ls).length = L.length + 1 + ls.length := by simp; omega
  have hold : ∀ l, l < b → w'.layers l = w.layers l := fun l hl => hlay l (by omega)
  have hz : d.b + (L ++ linkSpec (outShapes L shape) :: ls).length = b + ls.length := by rw [hlen]; omega
  obtain ⟨t, i, hnet⟩ := R.net
  have hother := R.other
  have hnm : ∀ p ∈ rest, p.2 ≠ m := fun p hp e => by
    have := (List.nodup_append.1 J.mnodup).2.1
    simp only [List.map_cons, List.nodup_cons] at this
    exact this.1 (by rw [← e]; exact List.mem_map_of_mem hp)
  have hnd : ∀ k ∈ done.map Prod.fst, k ≠ m := fun k hk e => by
    exact (List.nodup_append.1 J.mnodup).2.2 k hk m (by simp) e
  -- the last layer
  have lk : (w'.layers (b + ls.length)).kind = (ls[ls.length - 1]'(by omega)).kind := by
    have := (t1.at (k := ls.length - 1) (by omega)).kind
    rw [show d.b + L.length + 1 + 1 + (ls.length - 1) = b + ls.length by omega] at this
    rw [(hkp _).1, this]
  have src : Source w' (b + ls.length) (b + ls.length) := ⟨Or.inr ⟨_, lk⟩, Or.inl rfl⟩
  obtain ⟨rl, s1, s2, s3, s4, _⟩ := A.src
  rw [← hb] at s1 s2
  have src2 : Source w2 (b + ls.length) (b + ls.length) := ⟨by have := src.1; rwa [R.layers] at this, Or.inl rfl⟩
  have hrl : rl = b + ls.length := s1.unique src2
  subst hrl
  have rdif : LeafDif w' (b + ls.length) := s4.ext x2' (by rw [R.layers])
  have hout : (w'.layers (b + ls.length)).output = some out := by rw [R.layers]; exact s3
  -- its reference counter
  obtain ⟨j, hj, ej⟩ := A.refp ls.length (le_refl _)
  rw [← hb] at ej
  have hrd := R.base.ref j hj
  rw [← hb] at hrd
  have ej' : (w'.layers (b + ls.length)).ref = (w1.layers (b + j)).ref := by rw [R.layers]; exact ej
  have hcase : (w1.layers (b + j)).ref = (w.layers (d.b + L.length)).ref ∨ w.store.heap.next ≤ (w1.layers (b + j)).ref := by
    rcases Nat.eq_zero_or_pos j with h | h
    · left; subst h; rw [Nat.add_zero, hb]; exact R.ref0
    · right; rw [hb]; exact R.refval j hj h
  have hNw : w0.store.heap.next ≤ w.store.heap.next := J.apart.ext.next
  have dn : ∀ p ∈ done, w'.nets p.1 = w.nets p.1 := fun p hp => hother _ (hnd _ (List.mem_map_of_mem hp))
  refine ⟨⟨C, ?_, ?_, ?_, ?_, ?_, ?_, ?_, ?_, ?_, ?_⟩, ?_, ?_, ?_, ?_, ?_, ?_, ?_, ?_, ?_, ?_, ?_, ?_, ?_, ?_⟩ <;> try simp only [CData.join]
  · rw [hz]; exact Or.inr ⟨_, lk⟩
  · have := A.ffs ls.length (le_refl _) hpos
    rw [hz, R.layers, hb]; exact this
  · rw [hz]; exact hout
  · rw [hz]; exact rdif
  · have := R.built ls.length (le_refl _)
    rw [hz, R.layers, (A.same _).2.2.2.2.2.2.2, hb]; exact this
  · rw [hz, ej']
    refine ⟨hrd.1, lt_of_lt_of_le hrd.2.1 (x12.trans x2').next, ?_⟩
    rcases hcase with h | h
    · rw [h]; exact J.rref.2.2
    · omega
  · rw [hz, ej']
    rintro c (h | h)
    · rcases hcase with h1 | h1
      · rw [h1] at h; exact J.kref c h
      · have h2 := (J.stage.keep _ c h).2.1
        have h3 := J.hi.2
        omega
    · have h2 := (A.stage.keep _ c h).1
      have h3 := hrd.2.1
      omega
  · intro k hk l1 l2 x
    rw [(hkp _).1]
    rw [hlen] at hk
    rcases Nat.lt_or_ge k (L.length + 1) with h | h
    · exact J.nc k (by omega) l1 l2 x
    · rcases Nat.eq_or_lt_of_le h with h | h
      · rw [← h, show d.b + (L.length + 1) = d.b + L.length + 1 by omega, t1.kind]; simp
      · have := (t1.at (k := k - L.length - 2) (by omega)).kind
        rw [show d.b + L.length + 1 + 1 + (k - L.length - 2) = d.b + k by omega] at this
        rw [this]
        cases ls[k - L.length - 2]'(by omega) <;> simp [LSpec.kind]
  · rw [hold _ (by omega)]; exact J.inp
  · rw [hz, hnet, hb]
    exact ⟨t1.net.2.1, rfl⟩
  · have a := J.apart
    refine ⟨a.ext.trans x0', fun q hq => ?_, fun l hl => ?_, fun k hk => ?_, ?_, ?_⟩
    · rw [hval q (by omega) fun e => by have := J.rref.2.2; omega]
      exact a.val q hq
    · rw [hold l (by have := J.base; omega)]; exact a.layers l hl
    · rw [hother k fun e => by have := (J.mids (ls, m) (by simp)).1; simp only at this; omega]
      exact a.nets k hk
    · rw [hln]; exact a.layerNext
    · rw [hnn]; exact a.netNext
  · exact J.base
  · exact J.low
  · exact J.lo
  · rintro q (hq | ⟨k, hk, hq⟩)
    · exact J.ownlow q hq
    · obtain ⟨_, _, _, e⟩ := hsame (d.b + L.length + 1 + 1 + k)
      have hq' := ((t1.at hk).own_ext x01 e q).1 hq
      exact (J.sep _ (by omega) (by omega) q hq').1.2.2.2
  · rw [show d.b + (L ++ linkSpec (outShapes L shape) :: ls).length + 1 = d.b + L.length + 1 + ls.length + 1 by rw [hz]; omega]
    exact t2.keep x0' (fun l h1 _ => hlay l (by omega)) (fun p hp => hother _ (hnm p hp)) hln
  · rw [show d.b + (L ++ linkSpec (outShapes L shape) :: ls).length + 1 = d.b + L.length + 1 + ls.length + 1 by rw [hz]; omega]
    have s' := J.sep.mono (b' := d.b + L.length + 1 + ls.length + 1) (P' := fun q => q < d.lo ∧ q ∉ d.inM.ops ∧
      ¬ (d.own q ∨ ∃ k < ls.length, ownCell w1 (d.b + L.length + 1 + 1 + k) q) ∧ w0.store.heap.next ≤ q) (by omega) ?_
    · exact s'.keep t2 x0' (fun l h1 _ => hlay l (by omega)) hln
    · intro l h1 h2 q hq ⟨p1, p2, p3, p4⟩
      refine ⟨p1, p2, ?_, p4⟩
      rintro (h | ⟨k, hk, h⟩)
      · exact p3 h
      · obtain ⟨_, _, _, e⟩ := hsame (d.b + L.length + 1 + 1 + k)
        have h' := ((t1.at hk).own_ext x01 e q).1 h
        exact (J.sep l (by omega) h2 q hq).2 _ (by omega) (by omega) h'
  · intro p hp
    rcases List.mem_append.1 hp with hp | hp
    · obtain ⟨d1, last, d2, d3, d4⟩ := J.dones p hp
      rw [hz]
      refine ⟨by rw [dn p hp]; exact d1, last, by omega, by rw [dn p hp]; exact d3, ?_, ?_⟩
      · exact ⟨by rw [hold last (by omega)]; exact d4.1.1, Or.inl rfl⟩
      · exact d4.2.ext x0' (by rw [hold last (by omega)])
    · simp only [List.mem_singleton] at hp
      subst hp
      refine ⟨by rw [hnet], b + ls.length, by rw [hz]; omega, by rw [hnet, hb]; exact t1.net.2.1, src, rdif⟩
  · rw [List.flatMap_append, J.dops]; simp
  · intro p hp
    rw [hnn]; exact J.mids p (by simp [hp])
  · have := J.mnodup
    simpa using this
  · rw [hother m0 (hnd _ J.fdone)]; exact J.fnet
  · simp [J.fdone]
  · simp

end Godeep
