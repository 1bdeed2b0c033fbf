import Verif.Lemmas.GBP
import Verif.Lemmas.GLoop
/-
  Back-propagation through layers without weights: `SoftMax`, `Flatten`, `UpSampling2D`, `MaxPool2D`.
-/
set_option linter.unusedSectionVars false

namespace Godeep
open Spec GoNum

variable {T : Type} [GoNum T]

/-- layers without weights -/
theorem BPDone1.plain {s : LSpec T} {b l p fuel : Nat} {P X : GLayer} {alpha momentum : Ptr} {E : Heap T → STensor T → Prop} {dsafe : Prop}
    {ops : List (Op T)} {w w' : World T} (hs : s.weighted = false) (H : BPPre s w fuel b l p P X alpha momentum E dsafe)
    (g : Grow (fun j => b ≤ j ∧ j ≤ l) (fun _ => False) ops w w') (hl : w'.layers = w.layers)
    (dst : ∀ q ∈ dsts ops, (w.store.heap.next ≤ q ∧ q < w'.store.heap.next) ∨ q ∈ P.dM.ops)
    (fine : s.bpSafe P.oM.shape → (lt one (w.store.heap.val (w.layers l).ref) = true → ∀ x y : T, divPanics x y = false) → ∀ o ∈ ops, Fine o)
    (run : ∀ h h' pv x d D al mu, w'.store.heap.next ≤ h.next → Kept w w' ops h →
      BPVals s P X alpha momentum (w.layers l).ref E [] h pv [] x d D al mu (w.store.heap.val (w.layers l).ref) →
      exec ops h = .ok () h' → Holds h' P.dM (s.back pv d (shared (w.store.heap.val (w.layers l).ref) d) x D)) :
    BPDone1 s b l P X alpha momentum E dsafe ops [] [] w w' := by
  have hp : s.paramShapes P.oM.shape = [] := by cases s <;> first | rfl | cases hs
  have hm : s.momShapes P.oM.shape = [] := by cases s <;> first | rfl | cases hs
  refine ⟨g, fun j => by rw [hl], fun j => by rw [hl]; exact ⟨rfl, rfl⟩, fun j _ => by rw [hl], fun j _ => by rw [hl]; exact ⟨rfl, rfl⟩,
    fun h => (by rw [hs] at h; cases h), by rw [hp]; rfl, by simp, by simp, by rw [hm]; rfl, dst, fun a _ c => fine a c, ?_⟩
  intro h h' pv mv x d D al mu hn hk V he
  have e := V.mom
  cases e
  refine ⟨run h h' pv x d D al mu hn hk V he, fun h => (by rw [hs] at h; cases h), ?_⟩
  have : s.changed al mu [] d = [] := by cases s <;> rfl
  rw [this]; exact .nil

theorem bpGood_softMax : BPGood (.softMax : LSpec T) := by
  intro w fuel b l p P X alpha momentum E dsafe H
  show wp True (LayerM.softMaxBP l) _ w
  unfold LayerM.softMaxBP
  refine wp_bind (wp_layer ?_)
  have key := wp_scaled (k := fun _ => (pure () : Run T Unit)) (Q := fun _ w' => ∃ ops nps mbs, BPDone1 (.softMax : LSpec T) b l P X alpha momentum E dsafe ops nps mbs w w')
    H.pos H.dif H.rdif ⟨H.ref.1, H.ref.2.1⟩ fun w1 n rM ops S => wp_pure ?_
  · have e : (fun d => Run.buildGraph d : Nat → Run T Unit) = fun d => Run.buildGraph d >>= fun _ => pure () := by
      funext d w
      show _ = (Run.buildGraph d w).bind _
      cases Run.buildGraph d w <;> rfl
    show wp True (LayerM.scaledDif _ >>= fun d => Run.buildGraph d) _ w
    rw [e]; exact key
  refine ⟨ops, [], [], BPDone1.plain rfl H (S.grow _) S.layers (fun q hq => Or.inl (S.dst q hq)) (fun _ h => S.fine h) ?_⟩
  intro h h' pv x d D al mu hn hk V he
  show Holds h' P.dM d
  rw [← (H.step.share rfl).2]
  refine V.dif.kept (by rw [(exec_frame he).1]) fun q hq => (exec_frame he).2 q fun hd => ?_
  have := S.dst q hd
  have := (H.rdif.good.valid q hq).2
  omega

theorem bpGood_flatten : BPGood (.flatten : LSpec T) := by
  intro w fuel b l p P X alpha momentum E dsafe H
  show wp True (LayerM.flattenBP fuel l) _ w
  unfold LayerM.flattenBP
  have es : size X.dM.shape = size P.dM.shape := by
    rw [H.sdif, H.sout, H.spdif]
    show size [size P.oM.shape] = _
    simp [size]
  refine wp_bind (wp_layer (wp_bind (wp_deref H.dif ?_)))
  refine wp_bind (wp_buildReady (L := fun _ => False) H.rdif fun w2 nops hn g2 l2 n2 e2 => ?_)
  refine wp_bind (wp_deref H.pre ?_)
  refine wp_bind (wp_getDif H.fpos (by rw [l2]; exact H.pnot) (by rw [l2]; exact H.pdif) ?_)
  refine wp_bind (wp_deref rfl ?_)
  refine wp_transfer (L := fun _ => False) (C := fun _ => False) (H.rdif.grow g2.grow) (H.rpdif.grow g2.grow)
    (by rw [H.rdif.good.len, H.rpdif.good.len, es]) H.nd (H.sepd (by simp)) fun w3 o3 g3 l3 e3 dst fine run => ?_
  refine ⟨nops ++ o3, [], [], BPDone1.plain rfl H ((g2.grow.trans g3).weaken (fun _ h => h.elim) fun _ h => h) (by rw [l3, l2])
    (fun q hq => ?_) (fun _ _ o ho => ?_) ?_⟩
  · rw [dsts_append, hn.dsts] at hq
    exact Or.inr (dst q hq)
  · rcases List.mem_append.1 ho with ho | ho
    · exact hn.fine o ho
    · exact fine o ho
  · intro h h' pv x d D al mu hnx hk V he
    obtain ⟨h1, he1, he2⟩ := exec_append_ok.1 he
    rw [hn.exec] at he1
    simp only [Out.ok.injEq, true_and] at he1
    subst he1
    have hr := run _ _ he2
    show Holds h' P.dM (d.reshape x.shape)
    have hx : P.dM.shape = x.shape := by rw [H.spdif, V.inp.shape]
    have hdn : w.store.heap.next ≤ h'.next := by
      rw [(exec_frame he2).1]; have := g2.grow.next; have := g3.next; omega
    refine holds_of_cell (H.rpdif.good.mono hdn) hx fun idx hi => ?_
    have ho : offset P.dM.shape idx < size P.dM.shape := offset_lt hi
    have a1 : P.dM.ops[offset P.dM.shape idx]? = some (cell P.dM idx) := cell_at H.rpdif.good hi
    have b1 := congrArg (fun a => a[offset P.dM.shape idx]?) hr
    simp only [List.getElem?_map, a1, Option.map_some] at b1
    have a2 : X.dM.ops[offset P.dM.shape idx]? = some (cell X.dM (unflat X.dM.shape (offset P.dM.shape idx))) := by
      rw [cell_unflat (by rw [es]; exact ho), List.getD_eq_getElem _ _ (by rw [H.rdif.good.len, es]; exact ho), List.getElem?_eq_getElem]
    rw [a2] at b1
    simp only [Option.map_some, Option.some.injEq] at b1
    rw [b1, holds_cell V.dif (unflat_inRange (by rw [es]; exact ho))]
    show _ = ((allIdx d.shape).map d.get).getD (offset x.shape idx) zero
    rw [← hx, ← V.dif.shape, List.getD_eq_getElem?_getD, List.getElem?_map, allIdx_getElem? (by rw [es]; exact ho)]
    rfl

/-- after the errors have been divided, a loop changes the errors of the layer before -/
theorem BPDone1.scaledLoop {s : LSpec T} {b l p fuel : Nat} {P X : GLayer} {alpha momentum : Ptr} {E : Heap T → STensor T → Prop} {dsafe : Prop}
    {o1 o2 : List (Op T)} {n : Nat} {rM : Mat} {F : (Ptr → T) → Ptr → T} {safe : Prop} {w w1 w2 : World T} (hs : s.weighted = false)
    (H : BPPre s w fuel b l p P X alpha momentum E dsafe)
    (S : Scaled (w.layers l).ref (w.store.heap.val (w.layers l).ref) X.dM n rM o1 w w1) (g : ∀ L, Lay L o2 w1 w2) (hl : w2.layers = w1.layers)
    (A : Effect w1.store.heap.next w1.store.heap.next w2.store.heap.next (· ∈ P.dM.ops) o2 F safe) (hsafe : s.bpSafe P.oM.shape → safe)
    (run : ∀ (h1 h' : Heap T) pv x d D, P.dM.shape = x.shape → Holds h1 P.oM x → Holds h1 X.oM (s.fn pv x) →
      Holds h1 rM (shared (w.store.heap.val (w.layers l).ref) d) →
      (s = .norm ∨ s = .eNorm → h1.val X.mx = max1 (x.flat.map fun v => if lt v zero then GoNum.neg v else v)) →
      (s ≠ .softMax → ∀ q ∈ P.dM.ops, h1.val q = zero) → GoodMat h' P.dM →
      (∀ q, q < w1.store.heap.next → h'.val q = F h1.val q) →
      Holds h' P.dM (s.back pv d (shared (w.store.heap.val (w.layers l).ref) d) x D)) :
    BPDone1 s b l P X alpha momentum E dsafe (o1 ++ o2) [] [] w w2 := by
  have n1 := (S.grow fun _ => False).next
  have n2 := (g fun _ => False).grow.next
  refine BPDone1.plain hs H (((S.grow fun _ => False).trans (g fun _ => False).grow).weaken (fun _ h => h.elim) fun _ h => h) (by rw [hl, S.layers])
    (fun q hq => ?_) (fun hs hr o ho => ?_) ?_
  · rw [dsts_append, List.mem_append] at hq
    rcases hq with hq | hq
    · have := S.dst q hq
      left; omega
    · rcases A.dst q hq with h | h
      · left; omega
      · exact Or.inr h
  · rcases List.mem_append.1 ho with ho | ho
    · exact S.fine hr o ho
    · exact A.fine (hsafe hs) o ho
  · intro h h' pv x d D al mu hnx hk V he
    obtain ⟨h1, he1, he2⟩ := exec_append_ok.1 he
    have f1 := exec_frame he1
    have f2 := exec_frame he2
    have kp : ∀ {m : Mat} {t : STensor T}, (∀ q ∈ m.ops, q < w.store.heap.next) → Holds h m t → Holds h1 m t := fun hm Hm =>
      Hm.kept (by rw [f1.1]) fun q hq => f1.2 q fun hd => by have := S.dst q hd; have := hm q hq; omega
    have hr := S.run h h1 d (by omega) (fun q a b c => ?_) V.rates.2.2 V.dif he1
    · refine run h1 h' pv x d D (by rw [H.spdif, V.inp.shape]) (kp (fun q hq => (H.rin.good.valid q hq).2) V.inp)
        (kp (fun q hq => (H.rout.good.valid q hq).2) V.out) hr (fun hs => ?_) (fun hs q hq => ?_) (H.rpdif.good.mono (by omega))
        fun q hq => A.run he2 hq
      · have := (H.step.mx hs).2.2
        rw [f1.2 _ fun hd => by have := S.dst _ hd; omega]; exact V.mx hs
      · have := (H.rpdif.good.valid q hq).2
        rw [f1.2 _ fun hd => by have := S.dst _ hd; omega]; exact V.zero hs q hq
    · rw [hk q a (by omega) ?_, (g fun _ => False).grow.val q b fun h => h]
      rw [dsts_append, List.mem_append]
      rintro (hd | hd)
      · exact c hd
      · rcases A.dst q hd with h | h
        · omega
        · have := (H.rpdif.good.valid q h).2; omega

theorem bpGood_upSampling (k : Nat) : BPGood (.upSampling k : LSpec T) := by
  intro w fuel b l p P X alpha momentum E dsafe H
  show wp True (LayerM.upSamplingBP k k fuel l) _ w
  unfold LayerM.upSamplingBP
  refine wp_bind (wp_layer (wp_scaled H.pos H.dif H.rdif ⟨H.ref.1, H.ref.2.1⟩ fun w1 n rM o1 S => ?_))
  have n1 := (S.grow fun _ => False).next
  refine wp_bind (wp_deref H.step.input (wp_bind (wp_mat ?_)))
  rw [(H.rin.grow (S.grow fun _ => False)).mat]
  refine wp_bind (wp_deref H.pre ?_)
  refine wp_bind (wp_getDif H.fpos (by rw [S.layers]; exact H.pnot) (by rw [S.layers]; exact H.pdif) ?_)
  obtain ⟨a, ha⟩ : ∃ a, a = P.oM.shape.getD 0 0 := ⟨_, rfl⟩
  obtain ⟨c, hc⟩ : ∃ a, a = P.oM.shape.getD 1 0 := ⟨_, rfl⟩
  obtain ⟨e, he⟩ : ∃ a, a = P.oM.shape.getD 2 0 := ⟨_, rfl⟩
  have hsh : P.oM.shape = [a, c, e] := by rw [ha, hc, he]; exact shape3 H.fits
  rw [← ha, ← hc, ← he]
  have sp : P.dM.shape = [a, c, e] := by rw [H.spdif, hsh]
  have sr : rM.shape = [a, c * k, e * k] := by rw [S.shape, H.sdif, H.sout, hsh]; rfl
  have gp := (H.rpdif.grow (S.grow fun _ => False)).good
  have gr := S.ready.good
  have hin : ∀ i j : List Nat, InRange [a, c, e] i → InRange [k, k] j →
      InRange rM.shape [i.getD 0 0, i.getD 1 0 * k + j.getD 0 0, i.getD 2 0 * k + j.getD 1 0] := by
    intro i j hi hj
    obtain ⟨_, h0, h1, h2⟩ := inRange3 hi
    have hj0 : j.getD 0 0 < k ∧ j.getD 1 0 < k := by
      have hl := inRange_length hj
      match j, hl with
      | [y, z], _ =>
        simp only [InRange, List.forall₂_cons, List.forall₂_nil_left_iff] at hj
        exact ⟨hj.1, hj.2.1⟩
    rw [sr]
    refine mk3 h0 ?_ ?_
    · calc i.getD 1 0 * k + j.getD 0 0 < i.getD 1 0 * k + k := by omega
        _ = (i.getD 1 0 + 1) * k := by rw [Nat.add_mul, Nat.one_mul]
        _ ≤ c * k := Nat.mul_le_mul_right _ h1
    · calc i.getD 2 0 * k + j.getD 1 0 < i.getD 2 0 * k + k := by omega
        _ = (i.getD 2 0 + 1) * k := by rw [Nat.add_mul, Nat.one_mul]
        _ ≤ e * k := Nat.mul_le_mul_right _ h2
  obtain ⟨V, hV⟩ : ∃ V : List Nat → (Ptr → T) → T, V = fun i v => sum1 ((allIdx [k, k]).map fun j =>
    v (cell rM [i.getD 0 0, i.getD 1 0 * k + j.getD 0 0, i.getD 2 0 * k + j.getD 1 0])) := ⟨_, rfl⟩
  refine wp_effect (base := w1.store.heap.next) (W := (· ∈ P.dM.ops)) (safe := 0 < k ∨ size P.oM.shape = 0)
    (F := fun v => (allIdx [a, c, e]).foldl (fun v i => Function.update v (cell P.dM i) (V i v)) v)
    (Effect.range (fun f hf => Effect.range (fun x hx => Effect.range (fun y hy lo hlo => ?_))) _ le_rfl) fun w2 o2 g2 l2 A => ?_
  · have hi3 : InRange [a, c, e] [f, x, y] := mk3 hf hx hy
    obtain ⟨hi, xs, ops, m, Vs⟩ := Vals.range (N := w1) (base := w1.store.heap.next) (n := k) (s := [k]) (safe := 0 < k ∨ size P.oM.shape = 0)
      (f := fun i => Run.collect (List.range k) fun j => Run.operand n [f, x * k + i, y * k + j]) (g := fun r => r)
      (e := fun j v => v (cell rM [f, x * k + j.getD 0 0, y * k + j.getD 1 0]))
      (fun i hi lo hb => by
        obtain ⟨hi', xs, ops, m, Vs⟩ := Vals.range (N := w1) (base := w1.store.heap.next) (n := k) (s := []) (safe := 0 < k ∨ size P.oM.shape = 0)
          (f := fun j => Run.operand n [f, x * k + i, y * k + j]) (g := fun p => [p])
          (e := fun j v => v (cell rM [f, x * k + i, y * k + j.getD 0 0]))
          (fun j hj lo hb => ⟨lo, _, [], Em.operand S.ready.mat gr (hin [f, x, y] [i, j] hi3 (.cons hi (.cons hj .nil))) lo,
            (Vals.old (gr.valid _ (cell_mem gr (hin [f, x, y] [i, j] hi3 (.cons hi (.cons hj .nil))))) hb).one fun v => rfl⟩) lo hb
        refine ⟨hi', xs, ops, m, ?_⟩
        have e1 : xs.flatMap (fun p => [p]) = xs := by simp
        rw [e1] at Vs
        exact Vs) lo hlo
    have hxs : xs.flatMap (fun r => r) = xs.flatten := by rw [List.flatMap_def]; simp
    rw [hxs] at Vs
    refine ⟨hi, ops ++ [.asg (cell P.dM [f, x, y]) (.sum xs.flatten)], ?_, ?_⟩
    · exact Em.bind (o1 := []) (Em.pure _ _) (Em.bind (o1 := []) (Em.operand (H.rpdif.grow (S.grow fun _ => False)).mat gp (by rw [sp]; exact hi3) _)
        (Em.bind m (Em.push _ _)))
    · refine (Effect.asg (E := fun v => V [f, x, y] v) Vs.le hlo Vs.dst Vs.fine (fun hs => ?_) (cell_mem gp (by rw [sp]; exact hi3)) (fun v => ?_) fun v v' hv => ?_).one
        fun v => rfl
      · have hk : 0 < k := by
          rcases hs with h | h
          · exact h
          · have := size_pos_of_inRange (hsh ▸ hi3)
            omega
        refine ⟨(gp.valid _ (cell_mem gp (by rw [sp]; exact hi3))).1, fun q hq => (Vs.rng q hq).1, ?_, trivial⟩
        have hl := congrArg List.length (Vs.val fun _ => zero)
        simp only [List.length_map, allIdx_length, size, Nat.mul_one] at hl
        show xs.flatten ≠ []
        intro h0
        rw [h0] at hl
        have := Nat.mul_pos hk hk
        simp at hl
        omega
      · rw [hV]
        show sum1 (xs.flatten.map (execV ops v)) = _
        rw [Vs.val]
        rfl
      · rw [hV]
        exact congrArg sum1 (Vs.loc v v' hv)
  · refine ⟨o1 ++ o2, [], [], BPDone1.scaledLoop rfl H S g2 l2 A (fun h => h) ?_⟩
    intro h1 h' pv x d D hx Hi Ho Hr _ _ g' hv
    refine holds_of_cell g' hx fun idx hi => ?_
    rw [hv _ (gp.valid _ (cell_mem gp hi)).2]
    have key := (foldl_cells gp H.nd (E := V) (fun i hi v v' hvv => ?_) h1.val).2 idx hi
    · rw [sp] at key
      rw [key, hV]
      show _ = sum1 _
      refine congrArg sum1 (List.map_congr_left fun j hj => ?_)
      rw [holds_cell Hr (hin idx j (by rw [← sp]; exact hi) (mem_allIdx.1 hj))]
    · rw [hV]
      refine congrArg sum1 (List.map_congr_left fun j hj => hvv _ (Or.inl fun hq => ?_))
      rcases S.cells _ (cell_mem gr (hin i j (by rw [← sp]; exact hi) (mem_allIdx.1 hj))) with h | h
      · have := (H.rpdif.good.valid _ hq).2; omega
      · exact H.sepd (by simp) _ hq h

theorem Em.getDif {N : World T} {fuel p n : Nat} (hf : 0 < fuel)
    (hp : (N.layers p).pre = none ∨ ∃ s : LSpec T, (N.layers p).kind = s.kind) (hd : (N.layers p).dif = some n) (lo : Nat) :
    Em N (LayerM.getDif fuel p) lo lo (some n) [] :=
  ⟨le_rfl, fun w _ hl _ => by
    rw [Nat.sub_self, emitted_nil]
    have := delegated_ok (field := Layer.dif) (w := w) hf (by rw [hl]; exact hp)
    rw [hl, hd] at this
    exact this⟩

theorem div_mul_add {a b s x i : Nat} (hi : i < s) (h : x = a * s + i) (hb : b = x / s) : a = b := by
  rw [hb, h, Nat.mul_comm, Nat.mul_add_div (by omega), Nat.div_eq_of_lt hi, Nat.add_zero]

theorem inRange5 {a b c d e : Nat} {i : List Nat} (h : InRange [a, b, c, d, e] i) :
    i = [i.getD 0 0, i.getD 1 0, i.getD 2 0, i.getD 3 0, i.getD 4 0] ∧ i.getD 0 0 < a ∧ i.getD 1 0 < b ∧ i.getD 2 0 < c ∧ i.getD 3 0 < d ∧ i.getD 4 0 < e := by
  have hl := inRange_length h
  match i, hl with
  | [x, y, z, u, v], _ =>
    simp only [InRange, List.forall₂_cons, List.forall₂_nil_left_iff] at h
    exact ⟨rfl, h.1, h.2.1, h.2.2.1, h.2.2.2.1, h.2.2.2.2.1⟩

theorem bpGood_maxPool (sx sy : Nat) : BPGood (.maxPool sx sy : LSpec T) := by
  intro w fuel b l p P X alpha momentum E dsafe H
  show wp True (LayerM.maxPoolBP sx sy fuel l) _ w
  unfold LayerM.maxPoolBP
  refine wp_bind (wp_layer (wp_scaled H.pos H.dif H.rdif ⟨H.ref.1, H.ref.2.1⟩ fun w1 n rM o1 S => ?_))
  have G1 := S.grow fun _ => False
  have n1 := G1.next
  refine wp_bind (wp_deref H.step.input (wp_bind (wp_mat ?_)))
  rw [(H.rin.grow G1).mat]
  refine wp_bind (wp_deref H.output (wp_bind (wp_mat ?_)))
  rw [(H.rout.grow G1).mat]
  obtain ⟨hl3, hsx, hsy⟩ := H.fits
  obtain ⟨a, ha⟩ : ∃ a, a = P.oM.shape.getD 0 0 := ⟨_, rfl⟩
  obtain ⟨c, hc⟩ : ∃ a, a = P.oM.shape.getD 1 0 := ⟨_, rfl⟩
  obtain ⟨e, he⟩ : ∃ a, a = P.oM.shape.getD 2 0 := ⟨_, rfl⟩
  have hsh : P.oM.shape = [a, c, e] := by rw [ha, hc, he]; exact shape3 hl3
  obtain ⟨c', hc'⟩ : ∃ a, a = (c + 1) / sx := ⟨_, rfl⟩
  obtain ⟨e', he'⟩ : ∃ a, a = (e + 1) / sy := ⟨_, rfl⟩
  have hso : X.oM.shape = [a, c', e'] := by rw [H.sout, hsh, hc', he']; rfl
  rw [hso, ← hc, ← he]
  simp only [List.getD_cons_zero, List.getD_cons_succ]
  have sp : P.dM.shape = [a, c, e] := by rw [H.spdif, hsh]
  have sr : rM.shape = [a, c', e'] := by rw [S.shape, H.sdif, hso]
  have rp := H.rpdif.grow G1
  have ri := H.rin.grow G1
  have ro := H.rout.grow G1
  obtain ⟨o, ho⟩ : ∃ o : List Nat → List Nat, o = fun k => [k.getD 0 0, k.getD 1 0, k.getD 2 0] := ⟨_, rfl⟩
  obtain ⟨t, ht⟩ : ∃ t : List Nat → List Nat, t = fun k => [k.getD 0 0, k.getD 1 0 * sx + k.getD 3 0, k.getD 2 0 * sy + k.getD 4 0] := ⟨_, rfl⟩
  obtain ⟨V, hV⟩ : ∃ V : List Nat → (Ptr → T) → T, V = fun k v => GoNum.add (v (cell P.dM (t k))) (GoNum.mul (v (cell rM (o k)))
    (same (v (cell P.oM (t k))) (v (cell X.oM (o k))))) := ⟨_, rfl⟩
  obtain ⟨F, hF⟩ : ∃ F : List Nat → (Ptr → T) → Ptr → T, F = fun k v =>
    if k.getD 1 0 * sx + k.getD 3 0 < c ∧ k.getD 2 0 * sy + k.getD 4 0 < e then Function.update v (cell P.dM (t k)) (V k v) else v := ⟨_, rfl⟩
  refine wp_effect (base := w1.store.heap.next) (W := (· ∈ P.dM.ops)) (safe := True)
    (F := fun v => (allIdx [a, c', e', sx, sy]).foldl (fun v k => F k v) v)
    (Effect.range (fun f hf => Effect.range (fun x hx => Effect.range (fun y hy lo hlo => ?_))) _ le_rfl) fun w2 o2 g2 l2 A => ?_
  · have hor : InRange [a, c', e'] [f, x, y] := mk3 hf hx hy
    obtain ⟨B, hB⟩ : ∃ B : Nat → Nat → Run T Unit, B = fun i j => (do
            let p ← Run.deref (w.layers l).pre
            let pdt ← Run.deref (← LayerM.getDif fuel p)
            let pd ← Run.operand pdt [f, x * sx + i, y * sy + j]
            let i' ← Run.operand P.out [f, x * sx + i, y * sy + j]
            let e ← Run.emit (.equals i' (cell X.oM [f, x, y]))
            let d ← Run.emit (.mul (cell rM [f, x, y]) e)
            Run.push (.asg pd (.add pd d))) := ⟨_, rfl⟩
    have body : ∀ i < sx, x * sx + i < c → ∀ j < sy, y * sy + j < e → ∀ lo, w1.store.heap.next ≤ lo → ∃ hi ops, Em w1 (B i j) lo hi () ops ∧
        Effect w1.store.heap.next lo hi (· ∈ P.dM.ops) ops (fun v => (allIdx []).foldl (fun v k => F (f :: x :: y :: i :: j :: k) v) v) True := by
      intro i hi hic j hj hjc lo hlo
      have htr : InRange [a, c, e] [f, x * sx + i, y * sy + j] := mk3 hf hic hjc
      have q1 := H.pos
      obtain ⟨p1, c1⟩ := rp.good.valid _ (cell_mem rp.good (by rw [sp]; exact htr))
      obtain ⟨p2, c2⟩ := ri.good.valid _ (cell_mem ri.good (by rw [hsh]; exact htr))
      obtain ⟨p3, c3⟩ := S.ready.good.valid _ (cell_mem S.ready.good (by rw [sr]; exact hor))
      obtain ⟨p4, c4⟩ := ro.good.valid _ (cell_mem ro.good (by rw [hso]; exact hor))
      refine ⟨lo + 2, [.asg lo (.equals (cell P.oM [f, x * sx + i, y * sy + j]) (cell X.oM [f, x, y])), .asg (lo + 1) (.mul (cell rM [f, x, y]) lo)] ++
        [.asg (cell P.dM [f, x * sx + i, y * sy + j]) (.add (cell P.dM [f, x * sx + i, y * sy + j]) (lo + 1))], ?_, ?_⟩
      · rw [hB]
        show Em w1 (Run.deref (w.layers l).pre >>= _) _ _ _ _
        rw [H.pre]
        refine Em.bind (o1 := []) (x := p) (Em.pure _ _) (Em.bind (o1 := []) (x := some P.dif) (Em.getDif H.fpos (by rw [S.layers]; exact H.pnot) (by rw [S.layers]; exact H.pdif) _) (Em.bind (o1 := []) (x := P.dif) (Em.pure _ _) ?_))
        exact Em.bind (o1 := []) (Em.operand rp.mat rp.good (by rw [sp]; exact htr) _) (Em.bind (o1 := []) (Em.operand ri.mat ri.good (by rw [hsh]; exact htr) _)
            (Em.bind (o1 := [_]) (Em.emit _ _) (Em.bind (o1 := [_]) (Em.emit _ _) (Em.push _ _))))
      · refine (Effect.asg (E := fun v => V [f, x, y, i, j] v) (by omega) hlo (by simp) (fun _ op hop => ?_) (fun _ => ?_)
          (cell_mem rp.good (by rw [sp]; exact htr)) (fun v => ?_) fun v v' hv => ?_).one fun v => ?_
        · simp only [List.mem_cons, List.not_mem_nil, or_false] at hop
          rcases hop with rfl | rfl
          · exact ⟨by omega, by simp [Rhs.reads]; omega, trivial, trivial⟩
          · exact ⟨by omega, by simp [Rhs.reads]; omega, trivial, trivial⟩
        · exact ⟨p1, by simp [Rhs.reads]; omega, trivial, trivial⟩
        · rw [hV, ht, ho]
          simp only [execV_asg, execV_nil, Rhs.ev, List.getD_cons_zero, List.getD_cons_succ]
          have x1 : cell P.dM [f, x * sx + i, y * sy + j] ≠ lo := by omega
          have x2 : cell P.dM [f, x * sx + i, y * sy + j] ≠ lo + 1 := by omega
          have x3 : cell rM [f, x, y] ≠ lo := by omega
          rw [Function.update_self, Function.update_of_ne x2, Function.update_of_ne x1, Function.update_of_ne x3, Function.update_self]
          rfl
        · rw [hV, ht, ho]
          simp only [List.getD_cons_zero, List.getD_cons_succ, hv _ c1, hv _ c2, hv _ c3, hv _ c4]
        · rw [hF, ht]
          simp only [List.getD_cons_zero, List.getD_cons_succ]
          rw [if_pos ⟨hic, hjc⟩]
    obtain ⟨hi, ops, m, A⟩ := Effect.filter (N := w1) (base := w1.store.heap.next) (W := (· ∈ P.dM.ops)) (safe := True) (n := sx) (s := [sy])
      (F := fun k v => F (f :: x :: y :: k) v) (p := fun i => x * sx + i < c)
      (f := fun i => Run.each ((List.range sy).filter fun j => y * sy + j < e) fun j => B i j)
      (fun i hi k v => by rw [hF]; exact if_neg fun h => (decide_eq_false_iff_not.1 hi) h.1)
      (fun i hi hic => Effect.filter (fun j hj k v => by rw [hF]; exact if_neg fun h => (decide_eq_false_iff_not.1 hj) h.2)
        fun j hj hjc => body i hi (of_decide_eq_true hic) j hj (of_decide_eq_true hjc)) lo hlo
    refine ⟨hi, ops, ?_, A⟩
    rw [hB] at m
    exact Em.bind (o1 := []) (Em.operand S.ready.mat S.ready.good (by rw [sr]; exact hor) _)
      (Em.bind (o1 := []) (Em.operand ro.mat ro.good (by rw [hso]; exact hor) _) m)
  · refine ⟨o1 ++ o2, [], [], BPDone1.scaledLoop rfl H S g2 l2 A (fun _ => trivial) ?_⟩
    intro h1 h' pv x d D hx Hi Ho Hr _ Hz g' hv
    obtain ⟨C, hC⟩ : ∃ C : List Nat → Prop, C = fun k => k.getD 1 0 * sx + k.getD 3 0 < c ∧ k.getD 2 0 * sy + k.getD 4 0 < e := ⟨_, rfl⟩
    have htr : ∀ k, InRange [a, c', e', sx, sy] k → C k → InRange [a, c, e] (t k) := by
      intro k hk hCk
      rw [ht]; rw [hC] at hCk
      exact mk3 (inRange5 hk).2.1 hCk.1 hCk.2
    have hor : ∀ k, InRange [a, c', e', sx, sy] k → InRange [a, c', e'] (o k) := by
      intro k hk
      rw [ho]
      exact mk3 (inRange5 hk).2.1 (inRange5 hk).2.2.1 (inRange5 hk).2.2.2.1
    have tinj : ∀ i j, InRange [a, c', e', sx, sy] i → InRange [a, c', e', sx, sy] j → t i = t j → i = j := by
      intro i j hi hj he
      rw [ht] at he
      simp only [List.cons.injEq, and_true] at he
      obtain ⟨e0, e1, e2⟩ := he
      obtain ⟨i0, i1, i2, i3, i4, i5⟩ := inRange5 hi
      obtain ⟨j0, j1, j2, j3, j4, j5⟩ := inRange5 hj
      have q1 : i.getD 1 0 = j.getD 1 0 := (div_mul_add i4 rfl rfl).trans (div_mul_add j4 e1 rfl).symm
      have q2 : i.getD 2 0 = j.getD 2 0 := (div_mul_add i5 rfl rfl).trans (div_mul_add j5 e2 rfl).symm
      rw [q1] at e1
      rw [q2] at e2
      rw [i0, j0, e0, q1, q2, Nat.add_left_cancel e1, Nat.add_left_cancel e2]
    have off : ∀ q, q ∈ P.dM.ops → ∀ k, InRange [a, c', e', sx, sy] k → C k → q ≠ cell rM (o k) ∧ q ≠ cell P.oM (t k) ∧ q ≠ cell X.oM (o k) := by
      intro q hq k hk hCk
      refine ⟨?_, ?_, ?_⟩
      · rintro rfl
        rcases S.cells _ (cell_mem S.ready.good (by rw [sr]; exact hor k hk)) with h | h
        · have := (H.rpdif.good.valid _ hq).2; omega
        · exact H.sepd (by simp) _ hq h
      · rintro rfl; exact (H.sep _ hq).1 (cell_mem ri.good (by rw [hsh]; exact htr k hk hCk))
      · rintro rfl; exact (H.sep _ hq).2.1 (cell_mem ro.good (by rw [hso]; exact hor k hk))
    obtain ⟨k1, k2⟩ := foldl_own (l := allIdx [a, c', e', sx, sy]) (F := F) (t := fun k q => C k ∧ q = cell P.dM (t k))
      (fun k _ v q hq => by
        rw [hF]
        dsimp only
        split
        · next h => exact Function.update_of_ne (fun e => hq ⟨by rw [hC]; exact h, e⟩) _ _
        · rfl)
      (by
        have : (allIdx [a, c', e', sx, sy]).Pairwise fun i j => i ≠ j := nodup_allIdx _
        refine this.imp_of_mem fun {i j} hi hj hne q h1 h2 => hne ?_
        have hi := mem_allIdx.1 hi
        have hj := mem_allIdx.1 hj
        refine tinj i j hi hj (cell_inj rp.good H.nd (by rw [sp]; exact htr i hi h1.1) (by rw [sp]; exact htr j hj h2.1) (h1.2.symm.trans h2.2)))
      (fun k hk v v' hvv q hq => by
        have hk := mem_allIdx.1 hk
        have hm := cell_mem rp.good (by rw [sp]; exact htr k hk hq.1)
        have ag : ∀ q, (q ∈ P.dM.ops → q = cell P.dM (t k)) → v q = v' q := fun q h => hvv q fun j hj htj =>
          ⟨hq.1, h (htj.2 ▸ cell_mem rp.good (by rw [sp]; exact htr j (mem_allIdx.1 hj) htj.1))⟩
        have hV' : V k v = V k v' := by
          rw [hV]
          dsimp only
          rw [ag (cell P.dM (t k)) fun _ => rfl, ag (cell rM (o k)) fun h => absurd rfl (off _ h k hk hq.1).1,
            ag (cell P.oM (t k)) fun h => absurd rfl (off _ h k hk hq.1).2.1, ag (cell X.oM (o k)) fun h => absurd rfl (off _ h k hk hq.1).2.2]
        have hCk := hq.1
        rw [hC] at hCk
        rw [hF]
        dsimp only
        rw [if_pos hCk, if_pos hCk, hq.2, Function.update_self, Function.update_self, hV']) h1.val
    refine holds_of_cell g' hx fun idx hi => ?_
    rw [hv _ (rp.good.valid _ (cell_mem rp.good hi)).2]
    have hi' := hi
    rw [sp] at hi'
    obtain ⟨i0, i1, i2, i3⟩ := inRange3 hi'
    have hz : h1.val (cell P.dM idx) = zero := Hz (by simp) _ (cell_mem rp.good hi)
    have hd1 : (shared (w.store.heap.val (w.layers l).ref) d).shape = [a, c', e'] := by rw [← Hr.shape, sr]
    show _ = (maxPoolBack sx sy (shared (w.store.heap.val (w.layers l).ref) d) x).get idx
    unfold maxPoolBack
    dsimp only
    rw [hd1]
    simp only [List.getD_cons_zero, List.getD_cons_succ]
    split
    · next hlt =>
      have hk : InRange [a, c', e', sx, sy] [idx.getD 0 0, idx.getD 1 0 / sx, idx.getD 2 0 / sy, idx.getD 1 0 % sx, idx.getD 2 0 % sy] :=
        .cons i1 (.cons hlt.1 (.cons hlt.2 (.cons (Nat.mod_lt _ hsx) (.cons (Nat.mod_lt _ hsy) .nil))))
      have d1 := Nat.div_add_mod' (idx.getD 1 0) sx
      have d2 := Nat.div_add_mod' (idx.getD 2 0) sy
      have htk : t [idx.getD 0 0, idx.getD 1 0 / sx, idx.getD 2 0 / sy, idx.getD 1 0 % sx, idx.getD 2 0 % sy] = idx := by
        rw [ht]
        simp only [List.getD_cons_zero, List.getD_cons_succ]
        rw [d1, d2]; exact i0.symm
      have hCk : C [idx.getD 0 0, idx.getD 1 0 / sx, idx.getD 2 0 / sy, idx.getD 1 0 % sx, idx.getD 2 0 % sy] := by
        rw [hC]
        simp only [List.getD_cons_zero, List.getD_cons_succ]
        rw [d1, d2]; exact ⟨i2, i3⟩
      rw [k2 _ (mem_allIdx.2 hk) (cell P.dM idx) ⟨hCk, by rw [htk]⟩, hF]
      dsimp only
      have hCk' := hCk
      rw [hC] at hCk'
      rw [if_pos hCk', htk, Function.update_self, hV]
      dsimp only
      rw [htk, hz, holds_cell Hi (by rw [hsh]; exact hi'), ho]
      simp only [List.getD_cons_zero, List.getD_cons_succ]
      rw [holds_cell Hr (by rw [sr]; exact mk3 i1 hlt.1 hlt.2), holds_cell Ho (by rw [hso]; exact mk3 i1 hlt.1 hlt.2)]
      rfl
    · next hlt =>
      rw [k1 _ fun k hk htk => hlt ?_, hz]
      have hk := mem_allIdx.1 hk
      have et := cell_inj rp.good H.nd hi (by rw [sp]; exact htr k hk htk.1) htk.2
      rw [ht] at et
      obtain ⟨j0, j1, j2, j3, j4, j5⟩ := inRange5 hk
      rw [et]
      simp only [List.getD_cons_zero, List.getD_cons_succ]
      rw [← div_mul_add j4 rfl rfl, ← div_mul_add j5 rfl rfl]
      exact ⟨j2, j3⟩

end Godeep
