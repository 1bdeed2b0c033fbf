import Verif.Lemmas.TrainOne
/-
  `TrainOne` and `Train` of a network of dense layers, and any number of steps.
-/
set_option linter.unusedSectionVars false

namespace Godeep
open Spec GoNum

variable {T : Type} [GoNum T]

section
variable {shape : List Nat} {ds : List (Nat × Activation T)} {m : Nat} {d : CData T} {L : Nat → DLayer} {acts : Nat → Activation T}
  {e : TData T} {w0 w1 wa wb a : World T}

theorem loadFrom_err {p t : Nat} {y : Mat} {w : World T} (r : (w.store.nodes p).mat = y) (h : (w.store.nodes t).mat.shape ≠ y.shape) :
    ∃ er, LayerM.loadFrom p t w = .err er w := by
  obtain ⟨er, he⟩ := Props.C08_loadFromTensor_error (T := T) y (w.store.nodes t).mat w.store.heap (Ne.symm h)
  refine ⟨er, ?_⟩
  show Run.heap ((w.store.nodes p).mat.loadFromTensor (w.store.nodes t).mat) w = _
  rw [r]
  unfold Run.heap
  rw [he]

theorem run_ok {g : Option (List (Op T))} {ops : List (Op T)} {w : World T} {h' : Heap T} (hg : g = some ops)
    (he : exec ops w.store.heap = .ok () h') : NetM.run g w = .ok () (atHeap w h') := by
  subst hg
  show Run.heap (exec ops) w = _
  unfold Run.heap
  rw [he]

/-- training changed no weight, no bias and no rate -/
structure Same (m : Nat) (d : CData T) (e : TData T) (a : World T) (h' : Heap T) : Prop where
  ch : TCh d e a.store.heap h'
  rates : h'.val e.alpha = a.store.heap.val e.alpha ∧ h'.val e.momentum = a.store.heap.val e.momentum
  par : ∀ pv, HasParams a m pv → HasParams (atHeap a h') m pv

theorem TLive.same (N : TNet shape ds m d L acts e w0 w1 wa wb) (A : TLive w0 w1 wa wb m ds.length d e a) {h' : Heap T}
    (hn : h'.next = a.store.heap.next) (hv : ∀ q, q ∉ d.inM.ops → q ∉ e.tM.ops → q ∉ dsts d.ops → q ∉ dsts e.cd → q ∉ dsts e.bp → q ∉ dsts e.rf →
      h'.val q = a.store.heap.val q) : Same m d e a h' := by
  have c : TCh d e a.store.heap h' := ⟨hn, fun q hq => hv q (fun h => hq ⟨by simp [h]⟩) (fun h => hq ⟨by simp [h]⟩) (fun h => hq ⟨by simp [h]⟩)
    (fun h => hq ⟨by simp [h]⟩) (fun h => hq ⟨by simp [h]⟩) (fun h => hq ⟨by simp [h]⟩)⟩
  refine ⟨c, ⟨?_, ?_⟩, fun pv hp => ?_⟩
  · obtain ⟨r1, r2, r3, r4, r5, r6, _⟩ := N.rate_not (Or.inl rfl : e.alpha = _ ∨ _)
    exact hv _ r1 r2 r3 r4 r5 r6
  · obtain ⟨r1, r2, r3, r4, r5, r6, _⟩ := N.rate_not (Or.inr rfl : e.momentum = _ ∨ _)
    exact hv _ r1 r2 r3 r4 r5 r6
  · rw [(A.change N c).params N]
    rw [A.params N] at hp
    refine forall₂_kept (le_of_eq hn.symm) (fun p hp z hz q hq => ?_) hp
    obtain ⟨k, hk, hz⟩ := mem_parsFrom hp hz
    obtain ⟨r1, r2, r3, r4, r5, r6, _⟩ := N.par_not hk (q := q) (by rcases hz with rfl | rfl <;> simp [hq])
    exact hv _ r1 r2 r3 r4 r5 r6

/-- `ExecFit` with a sample of a wrong shape -/
theorem TNet.execFit_err (N : TNet shape ds m d L acts e w0 w1 wa wb) (A : TLive w0 w1 wa wb m ds.length d e a) {tx ty : Nat} {x y : STensor T}
    (sx : Sample w0 w1 wa wb a tx x) (sy : Sample w0 w1 wa wb a ty y) (hs : ¬ (x.shape = shape ∧ y.shape = outShapes (ds.map dl) shape)) :
    ∃ er h', NetM.execFit m tx ty a = .err er (atHeap a h') ∧ Same m d e a h' := by
  obtain ⟨n1, n2, n3, n4, n5, n6, n7, n8, n9, n10⟩ := A.sameNet N
  obtain ⟨f1, f2, f3⟩ := N.fine
  have C := A.live.comp N.net.made
  obtain ⟨h1, e1⟩ := exec_fine e.rf a.store.heap f1
  have g1 := exec_frame e1
  have c1 : TCh d e a.store.heap h1 := ⟨g1.1, fun q hq => g1.2 q fun hm => hq ⟨by simp [hm]⟩⟩
  have A1 := A.change N c1
  have C1 := A1.live.comp N.net.made
  by_cases hx : x.shape = shape
  · obtain ⟨h2, e2, H2, m2, v2⟩ := loadFrom_ok (w := atHeap a h1) C1.rin C.nodup (N.sample sx c1).2.1
      (by rw [hx, C.ishape]) fun q hq hm => (N.inside ⟨Or.inl hm⟩).1 (sx.2.2 q hq)
    have c2 : TCh d e a.store.heap h2 := c1.trans ⟨m2, fun q hq => v2 q fun hm => hq ⟨by simp [hm]⟩⟩
    have A2 := A.change N c2
    have hy : ¬ y.shape = outShapes (ds.map dl) shape := fun h => hs ⟨hx, h⟩
    obtain ⟨er, he⟩ := loadFrom_err (p := e.tgt) (t := ty) (w := atHeap a h2) (A2.tgt N).mat (by
      rw [show ((atHeap a h2).store.nodes ty).mat.shape = _ from sy.2.1.shape, N.tShape]; exact hy)
    refine ⟨er, h2, ?_, A.same N c2.next fun q q1 _ _ _ _ q6 => by rw [v2 q q1]; exact g1.2 q q6⟩
    show (NetM.run (a.nets m).resetFit a).bind _ = _
    rw [run_ok n6 e1]
    show (Run.deref (a.nets m).input (atHeap a h1)).bind _ = _
    rw [n1]
    show (LayerM.loadFrom d.inp tx (atHeap a h1)).bind _ = _
    rw [e2]
    show (Run.deref (a.nets m).target (atHeap a h2)).bind _ = _
    rw [n2]
    show (LayerM.loadFrom e.tgt ty (atHeap a h2)).bind _ = _
    rw [he]
    rfl
  · obtain ⟨er, he⟩ := loadFrom_err (p := d.inp) (t := tx) (w := atHeap a h1) C1.rin.mat (by
      rw [show ((atHeap a h1).store.nodes tx).mat.shape = _ from sx.2.1.shape, C.ishape]; exact hx)
    refine ⟨er, h1, ?_, A.same N c1.next fun q _ _ _ _ _ q6 => g1.2 q q6⟩
    show (NetM.run (a.nets m).resetFit a).bind _ = _
    rw [run_ok n6 e1]
    show (Run.deref (a.nets m).input (atHeap a h1)).bind _ = _
    rw [n1]
    show (LayerM.loadFrom d.inp tx (atHeap a h1)).bind _ = _
    rw [he]
    rfl

/-- setting the rates -/
def setRates (e : TData T) (alpha momentum : T) (h : Heap T) : Heap T := (h.put e.alpha alpha).put e.momentum momentum

theorem setRates_ch (N : TNet shape ds m d L acts e w0 w1 wa wb) (alpha momentum : T) (h : Heap T) :
    TCh d e h (setRates e alpha momentum h) ∧ (setRates e alpha momentum h).val e.alpha = alpha ∧
    (setRates e alpha momentum h).val e.momentum = momentum := by
  obtain ⟨c1, c2, c3, c4⟩ := N.stat.cells
  have hne : e.alpha ≠ e.momentum := by omega
  refine ⟨⟨rfl, fun q hq => ?_⟩, ?_, ?_⟩
  · have h1 : q ≠ e.alpha := fun h => hq ⟨by simp [h]⟩
    have h2 : q ≠ e.momentum := fun h => hq ⟨by simp [h]⟩
    simp [setRates, Heap.put, h1, h2]
  · simp [setRates, Heap.put, hne]
  · simp [setRates, Heap.put]

theorem TNet.cellpos (N : TNet shape ds m d L acts e w0 w1 wa wb) : 0 < e.loss ∧ 0 < e.alpha ∧ 0 < e.momentum := by
  obtain ⟨c1, c2, c3, c4⟩ := N.stat.cells
  obtain ⟨l1, _⟩ := N.stat.le
  have := (N.pre.live.comp N.net.made).pos
  refine ⟨by omega, by omega, by omega⟩

theorem TLive.sameParams (N : TNet shape ds m d L acts e w0 w1 wa wb) (A : TLive w0 w1 wa wb m ds.length d e a) (alpha momentum : T)
    {pv : List (List (STensor T))} (hp : HasParams a m pv) : HasParams (atHeap a (setRates e alpha momentum a.store.heap)) m pv := by
  have c := (setRates_ch N alpha momentum a.store.heap).1
  rw [(A.change N c).params N]
  rw [A.params N] at hp
  refine forall₂_kept (le_of_eq c.next.symm) (fun p hp z hz q hq => ?_) hp
  obtain ⟨k, hk, hz⟩ := mem_parsFrom hp hz
  have hlt := (N.par_not hk (q := q) (by rcases hz with rfl | rfl <;> simp [hq])).2.2.2.2.2.2
  have r1 := (N.rate_not (Or.inl rfl : e.alpha = _ ∨ _)).2.2.2.2.2.2
  have r2 := (N.rate_not (Or.inr rfl : e.momentum = _ ∨ _)).2.2.2.2.2.2
  have h1 : q ≠ e.alpha := by omega
  have h2 : q ≠ e.momentum := by omega
  simp [setRates, Heap.put, h1, h2]

theorem TLive.trainOne_eq (N : TNet shape ds m d L acts e w0 w1 wa wb) (A : TLive w0 w1 wa wb m ds.length d e a) (tx ty : Nat) (alpha momentum : T) :
    NetM.trainOne m tx ty alpha momentum a = (NetM.execFit m tx ty (atHeap a (setRates e alpha momentum a.store.heap))).bind fun _ w =>
      Run.value (w.nets m).loss w := by
  obtain ⟨n1, n2, n3, n4, n5, n6, n7, n8, n9, n10⟩ := A.sameNet N
  obtain ⟨p1, p2, p3⟩ := N.cellpos
  show (match (a.nets m).bp with | none => _ | some _ => _ : Run T T) a = _
  rw [n5]
  show (Run.setValue (a.nets m).alpha alpha a).bind _ = _
  rw [n9, setValue_ok p2]
  show (Run.setValue (a.nets m).momentum momentum _).bind _ = _
  rw [n10, setValue_ok p3]
  rfl

/-- `TrainOne` with a sample of the right shapes -/
theorem TNet.trainOne (N : TNet shape ds m d L acts e w0 w1 wa wb) (A : TLive w0 w1 wa wb m ds.length d e a) {tx ty : Nat} {x y : STensor T}
    (sx : Sample w0 w1 wa wb a tx x) (sy : Sample w0 w1 wa wb a ty y) (hx : x.shape = shape) (hy : y.shape = outShapes (ds.map dl) shape)
    (alpha momentum : T) {pv : List (List (STensor T))} (hp : HasParams a m pv) :
    ∃ h', NetM.trainOne m tx ty alpha momentum a = .ok (absLoss y (netFn (ds.map dl) pv x)) (atHeap a h') ∧ TCh d e a.store.heap h' ∧
      HasParams (atHeap a h') m (trainStep alpha momentum (ds.map Prod.snd)
        ((List.range ds.length).map fun j => (a.layers (d.b + 1 + j)).trainable) pv x y) := by
  obtain ⟨c, v1, v2⟩ := setRates_ch N alpha momentum a.store.heap
  have hp' := A.sameParams N alpha momentum hp
  obtain ⟨h', r1, F⟩ := N.execFit (A.change N c) (N.sample sx c) (N.sample sy c) hx hy
  refine ⟨h', ?_, c.trans F.ch, ?_⟩
  · rw [A.trainOne_eq N, r1]
    show Run.value (a.nets m).loss (atHeap a h') = _
    rw [(A.sameNet N).2.2.2.2.2.2.2.1, value_ok N.cellpos.1]
    show Out.ok (h'.val e.loss) _ = _
    rw [F.loss pv hp']
  · have := F.par pv hp'
    rw [show (atHeap a (setRates e alpha momentum a.store.heap)).store.heap = setRates e alpha momentum a.store.heap from rfl, v1, v2] at this
    exact this

/-- `TrainOne` with a sample of a wrong shape -/
theorem TNet.trainOne_err (N : TNet shape ds m d L acts e w0 w1 wa wb) (A : TLive w0 w1 wa wb m ds.length d e a) {tx ty : Nat} {x y : STensor T}
    (sx : Sample w0 w1 wa wb a tx x) (sy : Sample w0 w1 wa wb a ty y) (hs : ¬ (x.shape = shape ∧ y.shape = outShapes (ds.map dl) shape))
    (alpha momentum : T) : ∃ er h', NetM.trainOne m tx ty alpha momentum a = .err er (atHeap a h') ∧ TCh d e a.store.heap h' ∧
      ∀ pv, HasParams a m pv → HasParams (atHeap a h') m pv := by
  obtain ⟨c, v1, v2⟩ := setRates_ch N alpha momentum a.store.heap
  obtain ⟨er, h', r1, r2⟩ := N.execFit_err (A.change N c) (N.sample sx c) (N.sample sy c) hs
  refine ⟨er, h', ?_, c.trans r2.ch, fun pv hp => r2.par pv (A.sameParams N alpha momentum hp)⟩
  rw [A.trainOne_eq N, r1]
  rfl

/-- the flags of the layers -/
abbrev flagsOf (d : CData T) (N : Nat) (a : World T) : List Bool := (List.range N).map fun j => (a.layers (d.b + 1 + j)).trainable

/-- the loop of `Train`: the samples up to the first one of a wrong shape -/
theorem TNet.loop (N : TNet shape ds m d L acts e w0 w1 wa wb) {inputs targets : List Nat} {xs ys : Nat → STensor T}
    (hlen : inputs.length = targets.length) : ∀ (picks : List Nat) (a : World T), TLive w0 w1 wa wb m ds.length d e a →
    (∀ i t, inputs[i]? = some t → Sample w0 w1 wa wb a t (xs i)) → (∀ i t, targets[i]? = some t → Sample w0 w1 wa wb a t (ys i)) →
    (∀ k ∈ picks, k < inputs.length) →
    ∃ done rest h', picks = done ++ rest ∧ TCh d e a.store.heap h' ∧
      (h'.val e.alpha = a.store.heap.val e.alpha ∧ h'.val e.momentum = a.store.heap.val e.momentum) ∧
      (∀ k ∈ done, (xs k).shape = shape ∧ (ys k).shape = outShapes (ds.map dl) shape) ∧
      (∀ pv, HasParams a m pv → HasParams (atHeap a h') m
        (trainAll (a.store.heap.val e.alpha) (a.store.heap.val e.momentum) (ds.map Prod.snd) (flagsOf d ds.length a) xs ys done pv)) ∧
      ((rest = [] ∧ NetM.trainLoop m inputs targets picks a = .ok () (atHeap a h')) ∨
        ∃ k r er, rest = k :: r ∧ ¬ ((xs k).shape = shape ∧ (ys k).shape = outShapes (ds.map dl) shape) ∧
          NetM.trainLoop m inputs targets picks a = .err er (atHeap a h')) := by
  intro picks
  induction picks with
  | nil =>
    intro a A _ _ _
    exact ⟨[], [], a.store.heap, rfl, TCh.refl _ _ _, ⟨rfl, rfl⟩, by simp, fun pv hp => hp, Or.inl ⟨rfl, rfl⟩⟩
  | cons k r ih =>
    intro a A hx hy hk
    have hk0 := hk k List.mem_cons_self
    obtain ⟨tx, htx⟩ : ∃ t, inputs[k]? = some t := ⟨_, List.getElem?_eq_getElem hk0⟩
    obtain ⟨ty, hty⟩ : ∃ t, targets[k]? = some t := ⟨_, List.getElem?_eq_getElem (by omega)⟩
    have ustep : NetM.trainLoop m inputs targets (k :: r) a = (NetM.execFit m tx ty a).bind fun _ => NetM.trainLoop m inputs targets r := by
      have i1 : Res.index inputs k = .ok tx := by unfold Res.index; rw [htx]
      have i2 : Res.index targets k = .ok ty := by unfold Res.index; rw [hty]
      show ((Run.lift (Res.index inputs k) a).bind _).bind _ = _
      rw [i1]
      show ((Run.lift (Res.index targets k) a).bind _).bind _ = _
      rw [i2]
      rfl
    by_cases hs : (xs k).shape = shape ∧ (ys k).shape = outShapes (ds.map dl) shape
    · obtain ⟨h1, r1, F⟩ := N.execFit A (hx k tx htx) (hy k ty hty) hs.1 hs.2
      obtain ⟨done, rest, h', p1, p2, p3, p4, p5, p6⟩ := ih (atHeap a h1) (A.change N F.ch) (fun i t ht => N.sample (hx i t ht) F.ch)
        (fun i t ht => N.sample (hy i t ht) F.ch) fun j hj => hk j (List.mem_cons_of_mem _ hj)
      refine ⟨k :: done, rest, h', by rw [p1]; rfl, F.ch.trans p2, ⟨by rw [p3.1]; exact F.rates.1, by rw [p3.2]; exact F.rates.2⟩, fun j hj => ?_, fun pv hp => ?_, ?_⟩
      · rcases List.mem_cons.1 hj with rfl | hj
        · exact hs
        · exact p4 j hj
      · have := p5 _ (F.par pv hp)
        rw [show (atHeap a h1).store.heap = h1 from rfl, F.rates.1, F.rates.2] at this
        exact this
      · rw [ustep, r1]
        exact p6
    · obtain ⟨er, h1, r1, S⟩ := N.execFit_err A (hx k tx htx) (hy k ty hty) hs
      refine ⟨[], k :: r, h1, rfl, S.ch, S.rates, by simp, fun pv hp => S.par pv hp, Or.inr ⟨k, r, er, rfl, hs, ?_⟩⟩
      rw [ustep, r1]
      rfl

/-- `Train` -/
theorem TNet.train (N : TNet shape ds m d L acts e w0 w1 wa wb) (A : TLive w0 w1 wa wb m ds.length d e a) {inputs targets : List Nat}
    {xs ys : Nat → STensor T} (hlen : inputs.length = targets.length)
    (hx : ∀ i t, inputs[i]? = some t → Sample w0 w1 wa wb a t (xs i)) (hy : ∀ i t, targets[i]? = some t → Sample w0 w1 wa wb a t (ys i))
    (epochs batch : Nat) (alpha momentum : T) (draw : Nat → Nat) (hne : inputs.length = 0 → drawn inputs.length epochs batch draw = []) :
    ∃ done rest h', drawn inputs.length epochs batch draw = done ++ rest ∧ TCh d e a.store.heap h' ∧
      (∀ k ∈ done, (xs k).shape = shape ∧ (ys k).shape = outShapes (ds.map dl) shape) ∧
      (∀ pv, HasParams a m pv → HasParams (atHeap a h') m
        (trainAll alpha momentum (ds.map Prod.snd) (flagsOf d ds.length a) xs ys done pv)) ∧
      ((rest = [] ∧ NetM.train m inputs targets epochs batch alpha momentum draw a = .ok () (atHeap a h')) ∨
        ∃ k r er, rest = k :: r ∧ ¬ ((xs k).shape = shape ∧ (ys k).shape = outShapes (ds.map dl) shape) ∧
          NetM.train m inputs targets epochs batch alpha momentum draw a = .err er (atHeap a h')) := by
  obtain ⟨n1, n2, n3, n4, n5, n6, n7, n8, n9, n10⟩ := A.sameNet N
  obtain ⟨p1, p2, p3⟩ := N.cellpos
  obtain ⟨c, v1, v2⟩ := setRates_ch N alpha momentum a.store.heap
  obtain ⟨done, rest, h', q1, q2, q3, q4, q5, q6⟩ := N.loop (xs := xs) (ys := ys) hlen (drawn inputs.length epochs batch draw)
    (atHeap a (setRates e alpha momentum a.store.heap)) (A.change N c) (fun i t ht => N.sample (hx i t ht) c)
    (fun i t ht => N.sample (hy i t ht) c) fun k hk => by
      rcases Nat.eq_zero_or_pos inputs.length with h | h
      · rw [hne h] at hk; cases hk
      · obtain ⟨j, _, rfl⟩ := List.mem_map.1 hk
        exact Nat.mod_lt _ h
  have hrun : NetM.train m inputs targets epochs batch alpha momentum draw a =
      (NetM.trainLoop m inputs targets (drawn inputs.length epochs batch draw) (atHeap a (setRates e alpha momentum a.store.heap))).bind fun _ w =>
        (Run.value e.loss w).bind fun _ w => .ok () w := by
    show (if inputs.length ≠ targets.length then _ else _ : Run T Unit) a = _
    rw [if_neg (by simpa using hlen)]
    show (match (a.nets m).bp with | none => _ | some _ => _ : Run T Unit) a = _
    rw [n5]
    show (Run.setValue (a.nets m).alpha alpha a).bind _ = _
    rw [n9, setValue_ok p2]
    show (Run.setValue (a.nets m).momentum momentum _).bind _ = _
    rw [n10, setValue_ok p3]
    show (if inputs.length = 0 ∧ (epochs * if batch = 0 then inputs.length else batch) ≠ 0 then _ else _ : Run T Unit) _ = _
    rw [if_neg]
    · show (NetM.trainLoop m inputs targets _ _).bind _ = _
      rw [← n8]
      rfl
    · rintro ⟨h1, h2⟩
      have := congrArg List.length (hne h1)
      unfold drawn at this
      rw [List.length_map, List.length_range] at this
      exact h2 this
  refine ⟨done, rest, h', q1, c.trans q2, q4, fun pv hp => ?_, ?_⟩
  · have := q5 pv (A.sameParams N alpha momentum hp)
    rw [show (atHeap a (setRates e alpha momentum a.store.heap)).store.heap = setRates e alpha momentum a.store.heap from rfl, v1, v2] at this
    exact this
  · rcases q6 with ⟨r1, r2⟩ | ⟨k, r, er, r1, r2, r3⟩
    · left
      refine ⟨r1, ?_⟩
      rw [hrun, r2]
      show (Run.value e.loss _).bind _ = _
      rw [value_ok p1]
      rfl
    · right
      refine ⟨k, r, er, r1, r2, ?_⟩
      rw [hrun, r3]
      rfl

theorem choose_samples {l : List Nat} {S : Nat → STensor T → Prop} (h : ∀ t ∈ l, ∃ x, S t x) :
    ∃ xs : Nat → STensor T, ∀ (i t : Nat), l[i]? = some t → S t (xs i) := by
  have : ∀ i : Nat, ∃ x : STensor T, ∀ t, l[i]? = some t → S t x := fun i => by
    cases hi : l[i]? with
    | none => exact ⟨⟨[], fun _ => zero⟩, by simp⟩
    | some t =>
      obtain ⟨x, hx⟩ := h t (List.mem_of_getElem? hi)
      exact ⟨x, fun u hu => by cases hu; exact hx⟩
  exact ⟨fun i => (this i).choose, fun i => (this i).choose_spec⟩

/-- any call that trains: some steps, and only the heap changes -/
theorem TNet.any (N : TNet shape ds m d L acts e w0 w1 wa wb) (A : TLive w0 w1 wa wb m ds.length d e a) {b : World T}
    (s : Train w0 w1 wa wb m a b) : ∃ h' alpha momentum xs ys picks, b = atHeap a h' ∧ TCh d e a.store.heap h' ∧
      ∀ pv, HasParams a m pv → HasParams b m (trainAll alpha momentum (ds.map Prod.snd) (flagsOf d ds.length a) xs ys picks pv) := by
  cases s with
  | @one tx ty x y alpha momentum sx sy he =>
    by_cases hs : x.shape = shape ∧ y.shape = outShapes (ds.map dl) shape
    · obtain ⟨pv, hp, _⟩ := A.live.someParams N.net.made
      obtain ⟨h', r1, r2, _⟩ := N.trainOne A sx sy hs.1 hs.2 alpha momentum hp
      rw [r1] at he
      rcases he with ⟨r, he⟩ | ⟨er, he⟩
      · cases he
        refine ⟨h', alpha, momentum, fun _ => x, fun _ => y, [0], rfl, r2, fun pv hp => ?_⟩
        obtain ⟨h'', r1', _, r3'⟩ := N.trainOne A sx sy hs.1 hs.2 alpha momentum hp
        rw [r1] at r1'
        have : atHeap a h' = atHeap a h'' := by injection r1'
        rw [this]
        exact r3'
      · cases he
    · obtain ⟨er, h', r1, r2, r3⟩ := N.trainOne_err A sx sy hs alpha momentum
      rw [r1] at he
      rcases he with ⟨r, he⟩ | ⟨er, he⟩
      · cases he
      · cases he
        exact ⟨h', alpha, momentum, fun _ => x, fun _ => y, [], rfl, r2, r3⟩
  | @many inputs targets epochs batch alpha momentum draw hx hy he =>
    by_cases hlen : inputs.length = targets.length
    · by_cases hne : inputs.length = 0 → drawn inputs.length epochs batch draw = []
      · obtain ⟨xs, hxs⟩ := choose_samples hx
        obtain ⟨ys, hys⟩ := choose_samples hy
        obtain ⟨done, rest, h', q1, q2, q3, q4, q5⟩ := N.train A hlen hxs hys epochs batch alpha momentum draw hne
        refine ⟨h', alpha, momentum, xs, ys, done, ?_, q2, ?_⟩
        · rcases q5 with ⟨_, q5⟩ | ⟨_, _, er, _, _, q5⟩
          · rw [q5] at he
            rcases he with ⟨r, he⟩ | ⟨er, he⟩
            · cases he; rfl
            · cases he
          · rw [q5] at he
            rcases he with ⟨r, he⟩ | ⟨er, he⟩
            · cases he
            · cases he; rfl
        · have : b = atHeap a h' := by
            rcases q5 with ⟨_, q5⟩ | ⟨_, _, er, _, _, q5⟩
            · rw [q5] at he
              rcases he with ⟨r, he⟩ | ⟨er, he⟩
              · cases he; rfl
              · cases he
            · rw [q5] at he
              rcases he with ⟨r, he⟩ | ⟨er, he⟩
              · cases he
              · cases he; rfl
          rw [this]; exact q4
      · exfalso
        obtain ⟨h1, h2⟩ := Classical.not_imp.1 hne
        obtain ⟨n1, n2, n3, n4, n5, n6, n7, n8, n9, n10⟩ := A.sameNet N
        obtain ⟨p1, p2, p3⟩ := N.cellpos
        have : NetM.train m inputs targets epochs batch alpha momentum draw a = .panic := by
          show (if inputs.length ≠ targets.length then _ else _ : Run T Unit) a = _
          rw [if_neg (by simpa using hlen)]
          show (match (a.nets m).bp with | none => _ | some _ => _ : Run T Unit) a = _
          rw [n5]
          show (Run.setValue (a.nets m).alpha alpha a).bind _ = _
          rw [n9, setValue_ok p2]
          show (Run.setValue (a.nets m).momentum momentum _).bind _ = _
          rw [n10, setValue_ok p3]
          show (if inputs.length = 0 ∧ (epochs * if batch = 0 then inputs.length else batch) ≠ 0 then _ else _ : Run T Unit) _ = _
          rw [if_pos]
          · rfl
          · refine ⟨h1, fun hz => h2 ?_⟩
            unfold drawn
            rw [hz]; rfl
        rw [this] at he
        rcases he with ⟨r, he⟩ | ⟨er, he⟩ <;> cases he
    · have : ∃ er, NetM.train m inputs targets epochs batch alpha momentum draw a = .err er a := by
        refine ⟨.size inputs.length targets.length, ?_⟩
        show (if inputs.length ≠ targets.length then _ else _ : Run T Unit) a = _
        rw [if_pos hlen]
        rfl
      obtain ⟨er, this⟩ := this
      rw [this] at he
      rcases he with ⟨r, he⟩ | ⟨er, he⟩
      · cases he
      · cases he
        exact ⟨a.store.heap, alpha, momentum, fun _ => ⟨[], fun _ => zero⟩, fun _ => ⟨[], fun _ => zero⟩, [], rfl, TCh.refl _ _ _, fun pv hp => hp⟩

/-- every state that is reached is ready for training -/
theorem tlive_step (N : TNet shape ds m d L acts e w0 w1 wa wb) (A : TLive w0 w1 wa wb m ds.length d e a) {b : World T}
    (s : TStep w0 w1 wa wb m a b) : TLive w0 w1 wa wb m ds.length d e b := by
  cases s with
  | train s =>
    obtain ⟨h', _, _, _, _, _, rfl, c, _⟩ := N.any A s
    exact A.change N c
  | other s =>
  cases s with
  | use s =>
    have t := touch_use N.net.made A.live s
    refine ⟨A.live.touch N.net.made t, A.ext.trans t.ext, fun l h1 h2 => (t.layers l).trans (A.lay l h1 h2), t.nets.trans A.net,
      fun q h1 h2 h3 => ?_⟩
    rw [t.val q (lt_of_lt_of_le h2 A.ext.next) (fun h => h3 ⟨by simp [h]⟩) (fun h => h3 ⟨by simp [h]⟩)
      (fun p hp y hy h => h3 (TW.par hp hy h)), A.zero q h1 h2 h3]
  | elsewhere h1 h2 h0 h3 h4 h5 h6 h7 =>
    have x1 : w1.nodeNext ≤ wb.nodeNext := (N.pre.live.ext.trans N.built.wide.ext).nodeNext
    have M := N.net.made
    refine ⟨⟨⟨le_trans A.live.ext.next h1, le_trans A.live.ext.nodeNext h2, fun n hn => ?_, fun n hn hf => ?_⟩, fun l hl1 hl2 => ?_, ?_,
      fun q c h => (N.net.noK q c h).elim, le_trans A.live.layerNext h0⟩,
      ⟨le_trans A.ext.next h1, le_trans A.ext.nodeNext h2, fun n hn => ?_, fun n hn hf => ?_⟩, fun l hl1 hl2 => ?_, ?_, fun q q1 q2 q3 => ?_⟩
    · rw [h3 n (by omega), A.live.ext.kind n hn]
    · obtain ⟨y1, y2⟩ := A.live.ext.frozen n hn hf
      obtain ⟨z1, z2⟩ := h4 n (by omega) y1
      exact ⟨z1, by rw [z2, y2]⟩
    · rw [h5 l hl1 hl2, A.live.layers l hl1 hl2]
    · rw [h6, A.live.nets]
    · rw [h3 n hn, A.ext.kind n hn]
    · obtain ⟨y1, y2⟩ := A.ext.frozen n hn hf
      obtain ⟨z1, z2⟩ := h4 n hn y1
      exact ⟨z1, by rw [z2, y2]⟩
    · rw [h5 l hl1 hl2, A.lay l hl1 hl2]
    · rw [h6, A.net]
    · rw [h7 q fun ho => ?_, A.zero q q1 q2 q3]
      rcases ho.2 with h | h <;> omega

theorem tlive_steps (N : TNet shape ds m d L acts e w0 w1 wa wb) (s : TSteps w0 w1 wa wb m wb a) : TLive w0 w1 wa wb m ds.length d e a := by
  have h0 := N.start
  generalize hw : wb = w at s h0
  have hg : ∀ {x y : World T}, TSteps w0 w1 wa wb m x y → TLive w0 w1 wa wb m ds.length d e x → TLive w0 w1 wa wb m ds.length d e y := by
    intro x y s
    induction s with
    | none => exact fun h => h
    | more _ h2 ih => exact fun h => tlive_step N (ih h) h2
  subst hw
  exact hg s h0

theorem _root_.Godeep.Spec.TrainableOf.unique {w : World T} {l : Nat} {ts ts' : List Bool} (h : TrainableOf w l ts)
    (h' : TrainableOf w l ts') : ts = ts' := by
  induction h generalizing ts' with
  | input h0 =>
    cases h' with
    | input _ => rfl
    | layer h1 _ => rw [h0] at h1; cases h1
  | layer h0 _ ih =>
    cases h' with
    | input h1 => rw [h0] at h1; cases h1
    | layer h1 h2 =>
      rw [h0] at h1; cases h1
      rw [ih h2]

theorem trainableOf_chain {b n : Nat} {w : World T} (C : PreChain b n w) :
    TrainableOf w (b + n) ((List.range n).map fun k => (w.layers (b + 1 + k)).trainable) := by
  induction n with
  | zero => exact .input C.first
  | succ n ih =>
    rw [List.range_succ, List.map_append]
    have := C.pre n (by omega)
    have h := TrainableOf.layer (l := b + 1 + n) this (ih ⟨C.first, fun k hk => C.pre k (by omega)⟩)
    simpa [show b + (n + 1) = b + 1 + n by omega] using h

theorem TLive.flags (N : TNet shape ds m d L acts e w0 w1 wa wb) (A : TLive w0 w1 wa wb m ds.length d e a) {ts : List Bool} :
    Trainable a m ts ↔ ts = flagsOf d ds.length a := by
  have C := A.live.comp N.net.made
  have hc := C.chain
  have hl := C.last
  rw [List.length_map] at hc hl
  constructor
  · rintro ⟨l, h1, h2⟩
    rw [hl] at h1; cases h1
    exact h2.unique (trainableOf_chain hc)
  · rintro rfl
    exact ⟨_, hl, trainableOf_chain hc⟩

end
end Godeep
