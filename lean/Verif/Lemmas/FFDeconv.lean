import Verif.Lemmas.FFConv
/-
  Building the feed-forward part of `Deconv2D` layers.
-/
set_option linter.unusedSectionVars false

namespace Godeep
open Spec GoNum

variable {T : Type} [GoNum T]

theorem foldl_point {ι : Type} (pos : ι → List Nat) (t : ι → T) (idx : List Nat) : ∀ (l : List ι) (v : List Nat → T),
    (l.foldl (fun v k i => if i = pos k then add (v i) (t k) else v i) v) idx =
      (l.filter fun k => idx = pos k).foldl (fun s k => add s (t k)) (v idx) := by
  intro l
  induction l with
  | nil => intro v; rfl
  | cons k l ih =>
    intro v
    rw [List.foldl_cons, ih]
    by_cases h : idx = pos k
    · rw [if_pos h, List.filter_cons_of_pos (by simpa using h), List.foldl_cons]
    · rw [if_neg h, List.filter_cons_of_neg (by simpa using h)]

theorem foldl_allIdx {α : Type} (n : Nat) (s : List Nat) (f : α → List Nat → α) (a : α) :
    (List.range n).foldl (fun a i => (allIdx s).foldl (fun a k => f a (i :: k)) a) a = (allIdx (n :: s)).foldl f a := by
  simp only [allIdx, List.foldl_flatMap, List.foldl_map]

/-- one step of adding to one element -/
def addAt (pos : List Nat) (t : STensor T → STensor T → T) : STensor T → STensor T → (List Nat → T) → List Nat → T :=
  fun x w v i => if i = pos then add (v i) (t x w) else v i

theorem deconv_cell {base l inp neta wn : Nat} {inM wM netaM : Mat} {safe : Prop} {o i k : List Nat} {w : World T}
    (S : AccSep base inM wM netaM) (hnd : netaM.ops.Nodup) (hb : base ≤ w.store.heap.next) (hpos : 0 < w.store.heap.next)
    (ri : Ready w inp inM) (rn : Ready w neta netaM) (rw' : Ready w wn wM)
    (ho : InRange netaM.shape o) (hi : InRange inM.shape i) (hk : InRange wM.shape k) :
    wp True (do
        let out ← Run.operand neta o
        let i ← Run.operand inp i
        let wt ← Run.operand wn k
        let iw ← Run.emit (.mul i wt)
        Run.push (.asg out (.add out iw)) : Run T Unit)
      (fun _ w' => (Ready w' inp inM ∧ Ready w' neta netaM ∧ Ready w' wn wM ∧ 0 < w'.store.heap.next) ∧
        AccStep l inM wM netaM (addAt o fun x y => mul (x.get i) (y.get k)) safe w w') w := by
  have hem : Emits w.store.nodes (do
        let out ← Run.operand neta o
        let i ← Run.operand inp i
        let wt ← Run.operand wn k
        let iw ← Run.emit (.mul i wt)
        Run.push (.asg out (.add out iw)) : Run T Unit) (fun _ => ()) 1
      (fun p => [.asg p (.mul (cell inM i) (cell wM k)), .asg (cell netaM o) (.add (cell netaM o) p)]) :=
    (Emits.bind (Emits.operand (idx := o) rn.mat rn.good ho) fun _ =>
     Emits.bind (Emits.operand (idx := i) ri.mat ri.good hi) fun _ =>
     Emits.bind (Emits.operand (idx := k) rw'.mat rw'.good hk) fun _ =>
     Emits.bind (Emits.emit (.mul (cell inM i) (cell wM k))) fun p =>
     Emits.push (.asg (cell netaM o) (.add (cell netaM o) p))).congr (fun _ => rfl) rfl (fun _ => rfl)
  refine wp_of_ok (hem w rfl) ?_
  set p := w.store.heap.next with hp
  have ge := grow_emitted (L := (· = l)) (C := fun _ => False) 1
    [.asg p (.mul (cell inM i) (cell wM k)), .asg (cell netaM o) (.add (cell netaM o) p)] w
  have co := cell_mem rn.good ho
  have ci := cell_mem ri.good hi
  have ck := cell_mem rw'.good hk
  have so := S.neta _ co
  refine ⟨⟨ri.grow ge, rn.grow ge, rw'.grow ge, by simp⟩, _, ge, rfl, fun q q1 q2 => ?_, ?_, ?_, ?_⟩
  · exact allocZ_val 1 w.store.heap q q1 q2
  · intro q hq
    simp only [dsts_asg, dsts_nil, List.mem_cons, List.not_mem_nil, or_false] at hq
    rcases hq with rfl | rfl
    · left; rw [emitted_next]; omega
    · exact Or.inr co
  · intro h h' x y v hn _ hx hy hv he idx hidx
    obtain ⟨_, u, hu, he⟩ := exec_cons_asg_ok.1 he
    obtain ⟨u', hu', rfl⟩ := exec_asg1 he
    have e1 : u = mul (h.val (cell inM i)) (h.val (cell wM k)) := arith_eval (o := .mul) hu
    have e2 : u' = add ((h.put p u).val (cell netaM o)) ((h.put p u).val p) := arith_eval (o := .add) hu'
    rw [put_val, if_neg (by omega), put_val, if_pos rfl, e1, holds_cell hx hi, holds_cell hy hk, hv o ho] at e2
    have ci' := S.neta _ (cell_mem rn.good hidx)
    rw [put_val]
    unfold addAt
    by_cases h : idx = o
    · subst h; rw [if_pos rfl, if_pos rfl, e2]
    · rw [if_neg (fun h' => h (cell_inj rn.good hnd hidx ho h')), if_neg h, put_val, if_neg (by omega), hv idx hidx]
  · intro _ o' ho'
    have p1 := (rn.good.valid _ co).1
    have p2 := (ri.good.valid _ ci).1
    have p3 := (rw'.good.valid _ ck).1
    simp only [List.mem_cons, List.not_mem_nil, or_false] at ho'
    rcases ho' with rfl | rfl
    · refine ⟨hpos, ?_, trivial, trivial⟩
      simp only [Rhs.reads, List.mem_cons, List.not_mem_nil, or_false, forall_eq_or_imp, forall_eq]
      exact ⟨p2, p3⟩
    · refine ⟨p1, ?_, trivial, trivial⟩
      simp only [Rhs.reads, List.mem_cons, List.not_mem_nil, or_false, forall_eq_or_imp, forall_eq]
      exact ⟨p1, hpos⟩

theorem flatMap_single {α : Type} (X : List α) {a : Nat} : ∀ n, a < n →
    ((List.range n).flatMap fun i => if i = a then X else []) = X := by
  intro n
  induction n with
  | zero => intro h; omega
  | succ n ih =>
    intro h
    rw [List.range_succ, List.flatMap_append, List.flatMap_singleton]
    by_cases ha : n = a
    · subst ha
      rw [if_pos rfl, List.flatMap_eq_nil_iff.2, List.nil_append]
      intro i hi
      rw [List.mem_range] at hi
      rw [if_neg (by omega)]
    · rw [if_neg ha, List.append_nil, ih (by omega)]

theorem filter_allIdx {n a : Nat} {s : List Nat} (P : List Nat → Bool) (Q : List Nat → Bool) (ha : a < n)
    (h : ∀ i k, P (i :: k) = (decide (i = a) && Q k)) :
    (allIdx (n :: s)).filter P = ((allIdx s).filter Q).map (a :: ·) := by
  simp only [allIdx, List.filter_flatMap, List.filter_map]
  rw [← flatMap_single (((allIdx s).filter Q).map (a :: ·)) n ha]
  refine List.flatMap_congr fun i _ => ?_
  by_cases hi : i = a
  · subst hi
    rw [if_pos rfl]
    congr 1
    refine List.filter_congr fun k _ => ?_
    show P (i :: k) = _
    rw [h]; simp
  · rw [if_neg hi, List.filter_eq_nil_iff.2]
    · rfl
    · intro k _
      show ¬ P (i :: k) = true
      rw [h]; simp [hi]

theorem deconv_value {nf C H W kw kh sx sy : Nat} {act : T → T} {x wv bv : STensor T} (hx : x.shape = [C, H, W])
    {idx : List Nat} (hi : ∃ a b c, idx = [a, b, c] ∧ a < nf) :
    (deconvFn act kw kh sx sy wv bv x).get idx = act ((List.range nf).foldl (fun v outF => (List.range C).foldl (fun v inF =>
      (List.range H).foldl (fun v px => (List.range W).foldl (fun v py => (List.range kw).foldl (fun v kx =>
        (List.range kh).foldl (fun v ky => addAt [outF, px * sx + kx, py * sy + ky]
          (fun x y => mul (x.get [inF, px, py]) (y.get [outF, inF, kx, ky])) x wv v) v) v) v) v) v) bv.get idx) := by
  obtain ⟨a, b, c, rfl, ha⟩ := hi
  unfold deconvFn
  simp only [hx]
  congr 1
  let F : (List Nat → T) → List Nat → (List Nat → T) := fun v k i =>
    if i = [k.getD 0 0, k.getD 2 0 * sx + k.getD 4 0, k.getD 3 0 * sy + k.getD 5 0] then
      add (v i) (mul (x.get [k.getD 1 0, k.getD 2 0, k.getD 3 0]) (wv.get [k.getD 0 0, k.getD 1 0, k.getD 4 0, k.getD 5 0])) else v i
  have e : (allIdx [nf, C, H, W, kw, kh]).foldl F bv.get = (List.range nf).foldl (fun v outF => (List.range C).foldl (fun v inF =>
      (List.range H).foldl (fun v px => (List.range W).foldl (fun v py => (List.range kw).foldl (fun v kx =>
        (List.range kh).foldl (fun v ky => addAt [outF, px * sx + kx, py * sy + ky]
          (fun x y => mul (x.get [inF, px, py]) (y.get [outF, inF, kx, ky])) x wv v) v) v) v) v) v) bv.get := by
    simp only [← foldl_allIdx]
    rfl
  rw [← e]
  show _ = (allIdx [nf, C, H, W, kw, kh]).foldl (fun v k i => if i = _ then add (v i) _ else v i) bv.get [a, b, c]
  rw [foldl_point, filter_allIdx (a := a)
    (Q := fun k => decide (k.getD 1 0 * sx + k.getD 3 0 = b ∧ k.getD 2 0 * sy + k.getD 4 0 = c)) _ ha, List.foldl_map]
  · refine List.foldl_ext _ _ _ fun s k hk => ?_
    have hk := (List.mem_filter.1 hk).1
    rw [mem_allIdx] at hk
    have hl := inRange_length hk
    match k, hl with
    | [k0, k1, k2, k3, k4], _ => rfl
  · intro i k
    rw [Bool.eq_iff_iff]
    simp only [List.getD_cons_zero, List.getD_cons_succ, List.cons.injEq, and_true, decide_eq_true_eq, Bool.and_eq_true]
    constructor
    · rintro ⟨h1, h2, h3⟩; exact ⟨h1.symm, h2.symm, h3.symm⟩
    · rintro ⟨h1, h2, h3⟩; exact ⟨h1.symm, h2.symm, h3.symm⟩

theorem ffGood_deconv (nf kw kh sx sy : Nat) (act : Activation T) : FFGood (.deconv nf kw kh sx sy act : LSpec T) := by
  intro w fuel l p inp inM P
  obtain ⟨h3, hp1, hp2, hlt1, hlt2⟩ := P.fits
  obtain ⟨C, H, W, hsh⟩ : ∃ a b c, inM.shape = [a, b, c] := ⟨_, _, _, shape3 h3⟩
  show wp True (LayerM.deconvFF nf kw kh sx sy l) _ w
  unfold LayerM.deconvFF
  refine wp_bind (wp_layer ?_)
  simp only [P.input]
  refine wp_bind (wp_mat ?_)
  rw [P.rin.mat]
  have e3 : ¬ inM.shape.length ≠ 3 := by omega
  rw [if_neg e3]
  rw [hsh] at hp1 hp2 hlt1 hlt2
  simp only [List.getD_cons_zero, List.getD_cons_succ] at hp1 hp2 hlt1 hlt2
  have s1 : subU H 1 = H - 1 := by unfold subU; omega
  have s2 : subU W 1 = W - 1 := by unfold subU; omega
  rw [hsh]
  simp only [List.getD_cons_zero, List.getD_cons_succ]
  rw [s1, s2]
  refine wp_convAlloc (l := l) P.pos fun neta bias wn netaM bM wM w5 M => ?_
  have dis : ∀ q ∈ netaM.ops, q ∉ bM.ops := fun q hq => (M.fneta q hq).2.1
  have hlen : bM.ops.length = netaM.ops.length := by rw [M.rb.good.len, M.rneta.good.len, M.sb, M.sneta]
  refine wp_bind (wp_transfer (L := (· = l)) (C := fun _ => False) M.rb M.rneta hlen M.ndneta dis fun w6 t1 g6 l6 h6 d6 f6 r6 => ?_)
  refine wp_bind (wp_transfer (L := (· = l)) (C := fun _ => False) (M.rb.grow g6) (M.rneta.grow g6) hlen M.ndneta dis fun w7 t2 g7 l7 h7 d7 f7 r7 => ?_)
  have CT : Copies bM netaM (t1 ++ t2) := Copies.append ⟨d6, f6, r6⟩ ⟨d7, f7, r7⟩ dis
  have gT := g6.trans g7
  have n5 := M.grow.next
  have n7 : w7.store.heap.next = w5.store.heap.next := by rw [h7, h6]
  have hin : ∀ q ∈ inM.ops, q < w.store.heap.next := fun q hq => (P.rin.good.valid q hq).2
  have S : AccSep w5.store.heap.next inM wM netaM := by
    refine ⟨fun q hq => ⟨?_, fun h => ?_⟩, fun q hq => ⟨(M.rw.good.valid q hq).2, fun h => (M.fneta q h).2.2 hq⟩,
      fun q hq => (M.rneta.good.valid q hq).2⟩
    · have := hin q hq; omega
    · have := hin q hq; have := (M.fneta q h).1; omega
  have gI := M.grow.trans gT
  let I : World T → Prop := fun w => Ready w inp inM ∧ Ready w neta netaM ∧ Ready w wn wM ∧ 0 < w.store.heap.next
  have hI : I w7 := ⟨P.rin.grow gI, M.rneta.grow gT, M.rw.grow gT, by have := P.pos; omega⟩
  refine wp_bind (wp_mono (wp_accLoop (l := l) (safe := True) S I (by omega) hI fun outF hF wa ba Ia =>
    wp_accLoop (l := l) S I ba Ia fun inF hC wb bb Ib =>
    wp_accLoop (l := l) S I bb Ib fun px hx wc bc Ic =>
    wp_accLoop (l := l) S I bc Ic fun py hy wd bd Id =>
    wp_accLoop (l := l) S I bd Id fun kx hkx we be Ie =>
    wp_accLoop (l := l) S I be Ie fun ky hky wf bf If =>
      deconv_cell S M.ndneta bf If.2.2.2 If.1 If.2.1 If.2.2.1 ?_ ?_ ?_) ?_)
  · rw [M.sneta]
    have h1 : px * sx ≤ (H - 1) * sx := Nat.mul_le_mul_right _ (by omega)
    have h2 : py * sy ≤ (W - 1) * sy := Nat.mul_le_mul_right _ (by omega)
    exact mk3 hF (by omega) (by omega)
  · rw [hsh]; exact mk3 hC hx hy
  · rw [M.sw]; exact .cons hF (mk3 hC hkx hky)
  · rintro _ w8 ⟨_, A⟩
    rw [P.act]
    refine wp_convDone P.pos hin M gT (by rw [l7, l6]) (by rw [h7, h6]) CT A ?_ ?_ ?_ ?_ (by simp) P.refb.1
    · simp [LSpec.outShape, hsh]
    · simp [LSpec.paramShapes, hsh]
    · intro x wv bv hx _ hb
      refine ⟨hb, fun idx hi => ?_⟩
      obtain ⟨i1, i2, _⟩ := inRange3 hi
      exact deconv_value (by rw [hx, hsh]) ⟨_, _, _, i1, i2⟩
    · intro x wv bv hx _ hb
      refine ⟨hb, fun idx hi => ?_⟩
      obtain ⟨i1, i2, _⟩ := inRange3 hi
      exact deconv_value (act := id) (by rw [hx, hsh]) ⟨_, _, _, i1, i2⟩

end Godeep
