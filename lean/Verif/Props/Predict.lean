import Verif.Lemmas.Predict
import Verif.Lemmas.FFView
import Verif.Lemmas.FFPool
import Verif.Lemmas.FFDeconv
import Verif.Lemmas.FFConv2D
/-
  C38, C39, C40, C47, C61: compiling and predicting with sequential models.
-/
set_option linter.unusedSectionVars false

namespace Godeep.Props
open Godeep Spec GoNum

variable {T : Type} [GoNum T]

/-- all layers are dense -/
def AllDense (ls : List (LSpec T)) : Prop := ∀ s ∈ ls, ∃ n act, s = LSpec.dense n act

theorem ffGood_all (s : LSpec T) : FFGood s := by
  cases s with
  | dense n act => exact ffGood_dense n act
  | flatten => exact ffGood_flatten
  | softMax => exact ffGood_softMax
  | norm => exact ffGood_norm
  | eNorm => exact ffGood_eNorm
  | sub d f t => exact ffGood_sub d f t
  | conv nf kw kh sx sy act => exact ffGood_conv nf kw kh sx sy act
  | deconv nf kw kh sx sy act => exact ffGood_deconv nf kw kh sx sy act
  | maxPool sx sy => exact ffGood_maxPool sx sy
  | upSampling k => exact ffGood_upSampling k

theorem allDense_fits {ls : List (LSpec T)} (h : AllDense ls) (shape : List Nat) : Fits ls shape ∧ Safe ls shape := by
  induction ls generalizing shape with
  | nil => exact ⟨trivial, trivial⟩
  | cons s ls ih =>
    obtain ⟨n, act, rfl⟩ := h s (by simp)
    obtain ⟨h1, h2⟩ := ih (fun s hs => h s (by simp [hs])) [n]
    exact ⟨⟨trivial, h1⟩, ⟨trivial, h2⟩⟩

/-- C61: A program makes a sequential model of layers of any kinds and sizes that fit together and
compiles it.  In any later state, if `Predict` of a tensor of the model's input shape returns, it returns
a new tensor that holds the composition of the layers' functions with the weights and biases of that
state, and leaves them, and all other tensors of the program, as they were.  It does return if no layer
has to divide integers or to take a sum or maximum of nothing. -/
theorem C61_predict_sequential (hlaw : eq (add zero one) (zero : T) = false) {shape : List Nat} {ls : List (LSpec T)}
    (hfit : Fits ls shape) {w0 : World T} (hpos : 0 < w0.store.heap.next) :
    ∃ m w1, compiled shape ls w0 = .ok m w1 ∧ ∀ w2, Steps w0 w1 m w1 w2 →
      (∃ pv, HasParams w2 m pv ∧ pv.length = ls.length ∧ ∀ k s, ls[k]? = some s →
        (pv.getD k []).map STensor.shape = s.paramShapes (outShapes (ls.take k) shape)) ∧
      ∀ t x pv, UserTensor w0 w1 w2 t x → x.shape = shape → HasParams w2 m pv →
        (∀ r w3, NetM.predict m t w2 = .ok r w3 →
          UserTensor w0 w1 w3 r (netFn ls pv x) ∧ HasParams w3 m pv ∧ r = w2.nodeNext ∧
          ∀ n y, UserTensor w0 w1 w2 n y → UserTensor w0 w1 w3 n y) ∧
        (Safe ls shape → ∃ r w3, NetM.predict m t w2 = .ok r w3) := by
  obtain ⟨m, w1, e, d, _, _, _, M, _⟩ := wp_total (compiled_ok hlaw hpos (fun s _ => ffGood_all s) hfit)
  refine ⟨m, w1, e, fun w2 hst => ?_⟩
  have L := live_steps M hst
  refine ⟨L.someParams M, fun t x pv hu hs hp => ?_⟩
  have K := live_predict M L hu hs
  refine ⟨fun r w3 he => ?_, fun hsafe => ?_⟩
  · obtain ⟨P, _⟩ := wp_ok K he
    exact ⟨P.result M L hp, P.params M L hp, P.fresh.1, fun n y hn => P.user M hn⟩
  · have K' : wp True (NetM.predict m t) (fun _ _ => True) w2 := by
      unfold wp at K ⊢
      cases e : NetM.predict m t w2 with
      | ok _ _ => trivial
      | err _ _ => rw [e] at K; exact (K hsafe).elim
      | panic => rw [e] at K; exact (K hsafe).elim
    obtain ⟨r, w3, e3, _⟩ := wp_total K'
    exact ⟨r, w3, e3⟩

/-- C61, for models that cannot abort -/
theorem C61_predict_safe (hlaw : eq (add zero one) (zero : T) = false) {shape : List Nat} {ls : List (LSpec T)}
    (hfit : Fits ls shape) (hsafe : Safe ls shape) {w0 : World T} (hpos : 0 < w0.store.heap.next) :
    ∃ m w1, compiled shape ls w0 = .ok m w1 ∧ ∀ w2, Steps w0 w1 m w1 w2 →
      (∃ pv, HasParams w2 m pv ∧ pv.length = ls.length ∧ ∀ k s, ls[k]? = some s →
        (pv.getD k []).map STensor.shape = s.paramShapes (outShapes (ls.take k) shape)) ∧
      ∀ t x pv, UserTensor w0 w1 w2 t x → x.shape = shape → HasParams w2 m pv →
        ∃ r w3, NetM.predict m t w2 = .ok r w3 ∧
          UserTensor w0 w1 w3 r (netFn ls pv x) ∧ HasParams w3 m pv ∧ r = w2.nodeNext ∧
          ∀ n y, UserTensor w0 w1 w2 n y → UserTensor w0 w1 w3 n y := by
  obtain ⟨m, w1, e, H⟩ := C61_predict_sequential hlaw hfit hpos
  refine ⟨m, w1, e, fun w2 hst => ?_⟩
  obtain ⟨h1, h2⟩ := H w2 hst
  refine ⟨h1, fun t x pv hu hs hp => ?_⟩
  obtain ⟨h3, h4⟩ := h2 t x pv hu hs hp
  obtain ⟨r, w3, e3⟩ := h4 hsafe
  exact ⟨r, w3, e3, h3 r w3 e3⟩

/-- C38: A program makes a sequential model of dense layers of any sizes and compiles it.  In any later
state (the weights may have been given any values) `Predict` of a tensor of the model's input shape
succeeds, returns a new tensor that holds the composition of the layers' functions with the weights and
biases of that state, and leaves them, and all other tensors of the program, as they were. -/
theorem C38_predict_dense (hlaw : eq (add zero one) (zero : T) = false) {shape : List Nat} {ls : List (LSpec T)}
    (hd : AllDense ls) {w0 : World T} (hpos : 0 < w0.store.heap.next) :
    ∃ m w1, compiled shape ls w0 = .ok m w1 ∧ ∀ w2, Steps w0 w1 m w1 w2 →
      (∃ pv, HasParams w2 m pv ∧ pv.length = ls.length ∧ ∀ k s, ls[k]? = some s →
        (pv.getD k []).map STensor.shape = s.paramShapes (outShapes (ls.take k) shape)) ∧
      ∀ t x pv, UserTensor w0 w1 w2 t x → x.shape = shape → HasParams w2 m pv →
        ∃ r w3, NetM.predict m t w2 = .ok r w3 ∧
          UserTensor w0 w1 w3 r (netFn ls pv x) ∧ HasParams w3 m pv ∧ r = w2.nodeNext ∧
          ∀ n y, UserTensor w0 w1 w2 n y → UserTensor w0 w1 w3 n y :=
  C61_predict_safe hlaw (allDense_fits hd shape).1 (allDense_fits hd shape).2 hpos

/-- C38: a model that has not been compiled is compiled by the first `Predict` -/
theorem C38_compile_on_demand {m t : Nat} {w w' : World T} (hff : (w.nets m).ff = none)
    (he : NetM.compile m w = .ok () w') (hc : (w'.nets m).ff ≠ none) : NetM.predict m t w = NetM.predict m t w' := by
  obtain ⟨g, hg⟩ := Option.ne_none_iff_exists'.1 hc
  have e1 : NetM.predict m t w = (match (w.nets m).ff with
      | none => NetM.compile m
      | some _ => pure () : Run T Unit).bind (fun _ => (do
        let x ← Run.net m
        let i ← Run.deref x.input
        LayerM.loadFrom i t
        NetM.run x.ff
        let o ← Run.deref x.output
        NetM.copyTensor o : Run T Nat)) w := by
    show (match (w.nets m).ff with | none => _ | some _ => _ : Run T Nat) w = _
    cases (w.nets m).ff <;> rfl
  have e2 : NetM.predict m t w' = (match (w'.nets m).ff with
      | none => NetM.compile m
      | some _ => pure () : Run T Unit).bind (fun _ => (do
        let x ← Run.net m
        let i ← Run.deref x.input
        LayerM.loadFrom i t
        NetM.run x.ff
        let o ← Run.deref x.output
        NetM.copyTensor o : Run T Nat)) w' := by
    show (match (w'.nets m).ff with | none => _ | some _ => _ : Run T Nat) w' = _
    cases (w'.nets m).ff <;> rfl
  rw [e1, e2, hff, hg]
  show (NetM.compile m w).bind _ = _
  rw [he]
  rfl

/-- C39: any sequence of predictions: each result depends only on its input and the weights, and at
the end all results and all inputs still have their values. -/
theorem C39_predictions (hlaw : eq (add zero one) (zero : T) = false) {shape : List Nat} {ls : List (LSpec T)}
    (hfit : Fits ls shape) (hsafe : Safe ls shape) {w0 : World T} (hpos : 0 < w0.store.heap.next) :
    ∃ m w1, compiled shape ls w0 = .ok m w1 ∧ ∀ w2, Steps w0 w1 m w1 w2 →
      ∀ (txs : List (Nat × STensor T)) pv, (∀ p ∈ txs, UserTensor w0 w1 w2 p.1 p.2 ∧ p.2.shape = shape) →
        HasParams w2 m pv →
        ∃ rs w3, Run.collect (txs.map Prod.fst) (NetM.predict m) w2 = .ok rs w3 ∧
          List.Forall₂ (fun r p => UserTensor w0 w1 w3 r (netFn ls pv p.2)) rs txs ∧ rs.Nodup ∧
          (∀ r ∈ rs, w2.nodeNext ≤ r) ∧ HasParams w3 m pv ∧
          (∀ n y, UserTensor w0 w1 w2 n y → UserTensor w0 w1 w3 n y) ∧ Steps w0 w1 m w1 w3 := by
  obtain ⟨m, w1, e, H⟩ := C61_predict_safe hlaw hfit hsafe hpos
  refine ⟨m, w1, e, fun w2 hst txs pv => ?_⟩
  induction txs generalizing w2 with
  | nil => exact fun _ hp => ⟨[], w2, rfl, .nil, by simp, by simp, hp, fun _ _ h => h, hst⟩
  | cons p txs ih =>
    intro ht hp
    obtain ⟨hu, hs⟩ := ht p (by simp)
    obtain ⟨r, w3, e3, u3, p3, r3, k3⟩ := (H w2 hst).2 p.1 p.2 pv hu hs hp
    obtain ⟨rs, w4, e4, u4, nd4, f4, p4, k4, s4⟩ := ih w3 (hst.more (.use (.predict hu (Or.inl ⟨_, e3⟩))))
      (fun q hq => ⟨k3 _ _ (ht q (by simp [hq])).1, (ht q (by simp [hq])).2⟩) p3
    refine ⟨r :: rs, w4, ?_, .cons (k4 _ _ u3) u4, ?_, ?_, p4, fun n y hn => k4 n y (k3 n y hn), s4⟩
    · show (NetM.predict m p.1 w2).bind _ = _
      rw [e3]
      show (Run.collect (txs.map Prod.fst) (NetM.predict m) w3).bind _ = _
      rw [e4]; rfl
    · refine List.nodup_cons.2 ⟨fun hm => ?_, nd4⟩
      have := f4 r hm
      have := u3.1
      omega
    · intro q hq
      rcases List.mem_cons.1 hq with rfl | hq
      · omega
      · have := f4 q hq
        have := u3.1
        omega

/-- C40: in any later state, `Predict` of a tensor of another shape returns an error and changes nothing. -/
theorem C40_shape_checked (hlaw : eq (add zero one) (zero : T) = false) {shape : List Nat} {ls : List (LSpec T)}
    (hfit : Fits ls shape) {w0 : World T} (hpos : 0 < w0.store.heap.next) :
    ∃ m w1, compiled shape ls w0 = .ok m w1 ∧ ∀ w2, Steps w0 w1 m w1 w2 →
      ∀ t, (w2.store.nodes t).mat.shape ≠ shape → ∃ e, NetM.predict m t w2 = .err e w2 := by
  obtain ⟨m, w1, e, d, _, _, _, M, _⟩ :=
    wp_total (compiled_ok hlaw hpos (fun s _ => ffGood_all s) hfit)
  exact ⟨m, w1, e, fun w2 hst t ht => predict_shape ((live_steps M hst).comp M) ht⟩

theorem second_compile {w0 w1 : World T} {m : Nat} {shape : List Nat} {ls : List (LSpec T)} {d : CData T}
    (M : Made w0 w1 m shape ls d) {w2 : World T} (L : Live w0 w1 m d w2) (hsafe : Safe ls shape)
    {t : Nat} {x : STensor T} {pv : List (List (STensor T))} (hu : UserTensor w0 w1 w2 t x) (hs : x.shape = shape)
    (hp : HasParams w2 m pv) :
    ∃ r w3 w4, NetM.predict m t w2 = .ok r w3 ∧ NetM.compile m w3 = .ok () w4 ∧
      (w4.nets m).last = some (d.b + ls.length) ∧ ParamsOf w4 (d.b + ls.length) d.ps ∧
      List.Forall₂ (List.Forall₂ (Holds w4.store.heap)) d.ps pv ∧
      ∀ h : Heap T, h.next = w4.store.heap.next →
        (∀ q, h.val q ≠ w4.store.heap.val q → ∃ p ∈ d.ps, ∃ y ∈ p, q ∈ y.ops) →
        Holds h (w4.store.nodes t).mat x ∧
        ∃ r5 w5, NetM.predict m t { w4 with store := { w4.store with heap := h } } = .ok r5 w5 ∧
          Holds w5.store.heap (w5.store.nodes r5).mat (netFn ls pv x) := by
  have hp' := (L.hasParams M).1 hp
  have K : wp True (NetM.predict m t) (fun r b => Predicted m shape ls d x r w2 b ∧ Live w0 w1 m d b) w2 := by
    have K := live_predict M L hu hs
    unfold wp at K ⊢
    cases e : NetM.predict m t w2 with
    | ok _ _ => rw [e] at K; exact K
    | err _ _ => rw [e] at K; exact (K hsafe).elim
    | panic => rw [e] at K; exact (K hsafe).elim
  obtain ⟨r, w3, e3, P, L3⟩ := wp_total K
  obtain ⟨_, w4, e4, x4, l4, ln4, v4, o4, tg, n4⟩ := wp_total (recompile_ok M L3)
  have C3 := L3.comp M
  have PC4 : PreChain d.b ls.length w4 := ⟨by rw [l4]; exact C3.chain.first, fun k hk => by rw [l4]; exact C3.chain.pre k hk⟩
  have hps : ParamsOf w4 (d.b + ls.length) d.ps := by
    rw [C3.par]
    have := paramsOf_chain PC4
    rw [List.map_congr_left fun k hk =>
      layerParams_ext x4 (by rw [l4]) (by rw [l4]) (C3.pready k (List.mem_range.1 hk))] at this
    exact this
  have hp3 := ((L3.hasParams M).1 (P.params M L hp))
  obtain ⟨_, _, f3, _, f5, f6, f7, f8⟩ := M.flags _ (le_refl ls.length)
  refine ⟨r, w3, w4, e3, e4, by rw [n4]; exact C3.last, hps, forall₂_kept x4.next (fun p hp y hy q hq => ?_) hp3,
    fun h hn hv => ?_⟩
  · obtain ⟨y1, y2, _⟩ := C3.stage.par p hp y hy q hq
    exact v4 q (lt_of_lt_of_le y2 C3.hi.2) (by omega)
  have hkeep : ∀ q, (∀ p ∈ d.ps, ∀ y ∈ p, q ∉ y.ops) → h.val q = w4.store.heap.val q := by
    intro q hq
    by_contra hne
    obtain ⟨p, h3, y, h4, h5⟩ := hv q hne
    exact hq p h3 y h4 h5
  have hlo : ∀ q, q < w3.store.heap.next → (∀ p ∈ d.ps, ∀ y ∈ p, q ∉ y.ops) →
      q ≠ (w1.layers (d.b + ls.length)).ref → h.val q = w3.store.heap.val q := fun q h1 h2 h3 => by
    rw [hkeep q h2, v4 q h1 h3]
  set w5 : World T := { w4 with store := { w4.store with heap := h } } with hw5
  have x35 : Ext w3 w5 := x4.trans (ext_of_eq (le_of_eq hn.symm) rfl rfl)
  have u3 := P.user M hu
  have ht5 : w5.store.nodes t = w3.store.nodes t := o4 t (by have := u3.1; omega)
  have hin : ∀ q ∈ d.inM.ops, h.val q = w3.store.heap.val q := fun q hq => by
    refine hlo q (C3.rin.good.valid q hq).2 (fun p hp y hy hqy => ?_) (fun he => f6 (he ▸ hq))
    have := (C3.stage.par p hp y hy q hqy).1
    have := C3.inlt q hq
    omega
  have hout : ∀ q ∈ d.outM.ops, h.val q = w3.store.heap.val q := fun q hq => by
    by_cases hqi : q ∈ d.inM.ops
    · exact hin q hqi
    · refine hlo q (C3.rout.good.valid q hq).2 (fun p hp y hy hqy => C3.stage.opar p hp y hy q hqy hq) fun he => ?_
      rcases C3.stage.out q hq with h | h | h
      · exact hqi h
      · omega
      · exact f7 (he ▸ h)
  have husr : ∀ q ∈ (w3.store.nodes t).mat.ops, h.val q = w3.store.heap.val q := fun q hq => by
    refine hlo q (u3.2.1.valid q hq).2 (fun p hp y hy hqy => M.inside_par hp hy hqy (u3.2.2 q hq)) fun he => ?_
    have h1 := M.comp.hi
    rcases u3.2.2 q hq with h | h <;> omega
  obtain ⟨r5, w6, e6, H6⟩ := wp_total (predict_stale (m := m) (a := w5) (t := t) (x := x) (y := netFn ls pv x)
    (lt_of_lt_of_le C3.pos x35.next) (by show (w4.nets m).ff = _; rw [n4]) (by show (w4.nets m).input = _; rw [n4]; exact C3.input)
    (by show (w4.nets m).output = _; rw [n4]; exact C3.output) (C3.rin.ext x35) C3.nodup (C3.rout.ext x35)
    (by rw [ht5]; exact u3.2.1.kept x35.next husr) (by rw [hs, C3.ishape])
    (by rw [ht5]; exact fun q hq hq' => M.inside_in hq' (u3.2.2 q hq)) (P.inv.kept x35.next hin)
    ((P.outv pv hp').kept x35.next hout))
  refine ⟨?_, r5, w6, e6, H6⟩
  have := u3.2.1.kept x35.next husr
  rw [← ht5] at this
  exact this

/-- C47 is false: after a second `Compile` the weights play no role any more.  Predicting again an input
that was predicted before gives the old result, whatever values the weights have been given. -/
theorem C47_second_compile (hlaw : eq (add zero one) (zero : T) = false) {shape : List Nat} {ls : List (LSpec T)}
    (hfit : Fits ls shape) (hsafe : Safe ls shape) {w0 : World T} (hpos : 0 < w0.store.heap.next) :
    ∃ m w1, compiled shape ls w0 = .ok m w1 ∧ ∀ w2, Steps w0 w1 m w1 w2 →
      ∀ t x pv, UserTensor w0 w1 w2 t x → x.shape = shape → HasParams w2 m pv →
        ∃ r w3 w4 l ps, NetM.predict m t w2 = .ok r w3 ∧ NetM.compile m w3 = .ok () w4 ∧
          (w4.nets m).last = some l ∧ ParamsOf w4 l ps ∧
          ∀ h : Heap T, h.next = w4.store.heap.next →
            (∀ q, h.val q ≠ w4.store.heap.val q → ∃ p ∈ ps, ∃ y ∈ p, q ∈ y.ops) →
            ∃ r5 w5, NetM.predict m t { w4 with store := { w4.store with heap := h } } = .ok r5 w5 ∧
              Holds w5.store.heap (w5.store.nodes r5).mat (netFn ls pv x) := by
  obtain ⟨m, w1, e, d, _, _, _, M, _⟩ :=
    wp_total (compiled_ok hlaw hpos (fun s _ => ffGood_all s) hfit)
  refine ⟨m, w1, e, fun w2 hst t x pv hu hs hp => ?_⟩
  obtain ⟨r, w3, w4, e3, e4, h1, h2, _, h3⟩ := second_compile M (live_steps M hst) hsafe hu hs hp
  exact ⟨r, w3, w4, _, _, e3, e4, h1, h2, fun h hn hv => (h3 h hn hv).2⟩

/-- C47, what holds: the calls that compile on demand, `Predict` and `ResetIS`, compile a model only once.
In any later state `ResetIS` changes nothing and `Predict` keeps the model and its layers as they are.
Missing: an explicit second `Compile`, see `C47_second_compile`. -/
theorem C47_compile_on_demand_once_partial (hlaw : eq (add zero one) (zero : T) = false) {shape : List Nat}
    {ls : List (LSpec T)} (hfit : Fits ls shape) {w0 : World T} (hpos : 0 < w0.store.heap.next) :
    ∃ m w1, compiled shape ls w0 = .ok m w1 ∧ ∀ w2, Steps w0 w1 m w1 w2 →
      NetM.resetIS m w2 = .ok () w2 ∧
      ∀ t x r w3, UserTensor w0 w1 w2 t x → x.shape = shape → NetM.predict m t w2 = .ok r w3 →
        w3.nets = w2.nets ∧ w3.layers = w2.layers := by
  obtain ⟨m, w1, e, d, _, _, _, M, _, R⟩ :=
    wp_total (compiled_ok hlaw hpos (fun s _ => ffGood_all s) hfit)
  refine ⟨m, w1, e, fun w2 hst => ?_⟩
  have L := live_steps M hst
  refine ⟨?_, fun t x r w3 hu hs he => ?_⟩
  · have hff := (L.comp M).ff
    have hrs : (w2.nets m).reset = some [] := by
      obtain ⟨_, _, _, _, _, _, hn⟩ := R.net
      rw [(Net.fwd_eq L.nets).2.2.2.2.2, hn]
    show (match (w2.nets m).ff with | none => _ | some _ => _ : Run T Unit) w2 = _
    rw [hff]
    show NetM.run (w2.nets m).reset w2 = _
    rw [hrs]; rfl
  · obtain ⟨P, _⟩ := wp_ok (live_predict M L hu hs) he
    exact ⟨P.nets, P.layers⟩

/-- a state with one tensor, of shape `[1]`, holding 0 -/
def world1 : World Int where
  store := ⟨fun _ => ⟨.leaf, ⟨[1], [1], [1]⟩, false⟩, ⟨fun _ => 0, 2⟩, []⟩
  nodeNext := 1
  layers := fun _ => LayerM.blank .input
  layerNext := 0
  nets := fun _ => NetM.blankNet
  netNext := 0
  rnd := fun _ _ => 0
  draws := 0

theorem user_made {F : Prop} {w0 w1 : World T} {m : Nat} {shape : List Nat} {ls : List (LSpec T)} {d : CData T}
    (M : MadeF F w0 w1 m shape ls d) {n : Nat} {x : STensor T} (hn : n < w0.nodeNext) (hf : Spec.frozen w0.store n)
    (hx : Holds w0.store.heap (w0.store.nodes n).mat x) : UserTensor w0 w1 w1 n x := by
  obtain ⟨_, e⟩ := M.apart.ext.frozen n hn hf
  refine ⟨lt_of_lt_of_le hn M.apart.ext.nodeNext, ?_, fun q hq => ?_⟩
  · rw [e]
    exact hx.kept M.apart.ext.next fun q hq => M.apart.val q (hx.valid q hq).2
  · rw [e] at hq
    exact Or.inl (hx.valid q hq).2

/-- a state with one tensor of the given shape, all of whose elements are `c` -/
def worldOf (shape : List Nat) (c : T) : World T where
  store := ⟨fun _ => ⟨.leaf, ⟨shape, indexMul shape, List.range' 1 (size shape)⟩, false⟩, ⟨fun _ => c, size shape + 1⟩, []⟩
  nodeNext := 1
  layers := fun _ => LayerM.blank .input
  layerNext := 0
  nets := fun _ => NetM.blankNet
  netNext := 0
  rnd := fun _ _ => c
  draws := 0

theorem worldOf_holds (shape : List Nat) (c : T) :
    Holds (worldOf shape c).store.heap ((worldOf shape c).store.nodes 0).mat ⟨shape, fun _ => c⟩ := by
  refine holds_of_cell ⟨rfl, by simp [worldOf], ?_⟩ rfl fun _ _ => rfl
  intro p hp
  simp only [worldOf, List.mem_range'_1] at hp
  exact ⟨by omega, by show p < size shape + 1; omega⟩

/-- the hypotheses of C61 are met by many programs: any layers that fit, on any input shape -/
theorem worldOf_user (hlaw : eq (add zero one) (zero : T) = false) {shape : List Nat} {ls : List (LSpec T)}
    (hfit : Fits ls shape) (c : T) : ∃ m w1, compiled shape ls (worldOf shape c) = .ok m w1 ∧
      UserTensor (worldOf shape c) w1 w1 0 ⟨shape, fun _ => c⟩ := by
  obtain ⟨m, w1, e, d, _, _, _, M, _⟩ :=
    wp_total (compiled_ok (w0 := worldOf shape c) hlaw (by show 0 < size shape + 1; omega) (fun s _ => ffGood_all s) hfit)
  exact ⟨m, w1, e, user_made M (by show 0 < 1; omega) (frozen_leaf rfl) (worldOf_holds shape c)⟩

/-- C61, an instance: a convolution, pooling, flattening and a dense layer -/
example : ∃ (m : Nat) (w1 w3 : World Int) (r : Nat) (pv : List (List (STensor Int))),
    compiled [1, 4, 5] [.conv 2 2 3 1 1 .linear, .maxPool 2 2, .flatten, .dense 2 .linear] (worldOf [1, 4, 5] 7) = .ok m w1 ∧
    NetM.predict m 0 w1 = .ok r w3 ∧ UserTensor (worldOf [1, 4, 5] 7) w1 w3 r
      (netFn [.conv 2 2 3 1 1 .linear, .maxPool 2 2, .flatten, .dense 2 .linear] pv ⟨[1, 4, 5], fun _ => 7⟩) := by
  have hfit : Fits [.conv 2 2 3 1 1 .linear, .maxPool 2 2, .flatten, .dense 2 (.linear : Activation Int)] [1, 4, 5] := by
    simp [Fits, LSpec.fits, LSpec.outShape]
  have hsafe : Safe [.conv 2 2 3 1 1 .linear, .maxPool 2 2, .flatten, .dense 2 (.linear : Activation Int)] [1, 4, 5] := by
    simp [Safe, LSpec.safe, LSpec.outShape]
  obtain ⟨m, w1, e, u⟩ := worldOf_user (by decide) hfit 7
  obtain ⟨m', w1', e', H⟩ := C61_predict_safe (w0 := worldOf [1, 4, 5] (7 : Int)) (by decide) hfit hsafe (by decide)
  rw [e] at e'
  cases e'
  obtain ⟨⟨pv, hp, _⟩, H2⟩ := H w1 .none
  obtain ⟨r, w3, e3, u3, _⟩ := H2 0 _ pv u rfl hp
  exact ⟨m, w1, w3, r, pv, e, e3, u3⟩

theorem world1_holds : Holds world1.store.heap (world1.store.nodes 0).mat ⟨[1], fun _ => 0⟩ := by
  refine holds_of_cell ⟨rfl, rfl, ?_⟩ rfl fun _ _ => rfl
  intro p hp
  simp [world1] at hp
  subst hp
  exact ⟨by decide, by decide⟩

attribute [local irreducible] compiled NetM.predict NetM.compile netFn in
/-- the hypotheses of C38 are met: two dense layers on the state `world1`; the tensor of `world1` is a
user tensor, and the weights can be given any values, here 3 -/
example : ∃ m w1 w2 r w3 pv, compiled [1] [.dense 4 .linear, .dense 2 .linear] world1 = .ok m w1 ∧
    Steps world1 w1 m w1 w2 ∧ HasParams w2 m pv ∧ (∀ p ∈ pv, ∀ y ∈ p, ∀ idx, y.get idx = (3 : Int)) ∧
    NetM.predict m 0 w2 = .ok r w3 ∧
    UserTensor world1 w1 w3 r (netFn [.dense 4 .linear, .dense 2 .linear] pv ⟨[1], fun _ => 0⟩) := by
  have hd : AllDense [LSpec.dense 4 (Activation.linear (T := Int)), .dense 2 .linear] := fun s hs => by
    rcases List.mem_cons.1 hs with rfl | hs
    · exact ⟨_, _, rfl⟩
    · exact ⟨2, _, by simpa using hs⟩
  obtain ⟨m, w1, e, d, _, _, _, M, _⟩ :=
    wp_total (compiled_ok (w0 := world1) (by decide) (by show 0 < 2; omega) (fun s _ => ffGood_all s) (allDense_fits hd [1]).1)
  have hu := user_made M (n := 0) (by show 0 < 1; omega) (frozen_leaf rfl) world1_holds
  obtain ⟨h2, n2, v2, p2⟩ := live_setParams M (live_steps M .none) 3
  have hst : Step world1 w1 m w1 { w1 with store := { w1.store with heap := h2 } } := by
    refine .use (.weights M.comp.last (ps := d.ps) ?_ n2 v2)
    rw [M.comp.par]; exact paramsOf_chain M.comp.chain
  have hst' := Steps.more .none hst
  have hu2 : UserTensor world1 w1 { w1 with store := { w1.store with heap := h2 } } 0 ⟨[1], fun _ => 0⟩ := by
    refine ⟨hu.1, hu.2.1.kept (le_of_eq n2.symm) fun q hq => ?_, hu.2.2⟩
    by_contra hne
    obtain ⟨p, a1, y, a2, a3⟩ := v2 q hne
    exact M.inside_par a1 a2 a3 (hu.2.2 q hq)
  have hp := ((live_steps M hst').hasParams M).2 p2
  obtain ⟨m', w1', e', H⟩ := C38_predict_dense (w0 := world1) (shape := [1]) (by decide) hd (by show 0 < 2; omega)
  rw [e] at e'
  cases e'
  obtain ⟨r, w3, e3, u3, _⟩ := (H _ hst').2 0 _ _ hu2 rfl hp
  refine ⟨m, w1, _, r, w3, _, e, hst', hp, ?_, e3, u3⟩
  intro p hp y hy idx
  simp only [List.mem_map] at hp
  obtain ⟨a, _, rfl⟩ := hp
  obtain ⟨b, _, rfl⟩ := List.mem_map.1 hy
  rfl

attribute [local irreducible] compiled NetM.predict NetM.compile in
/-- C47 is false, an instance: after `Compile` was called again, `Predict` does not return the value of
the network. -/
theorem C47_not_idempotent : ∃ (w1 w2 w3 w4 w5 w6 : World Int) (m r r' : Nat) (pv : List (List (STensor Int))),
    compiled [1] [.dense 1 .linear] world1 = .ok m w1 ∧ Steps world1 w1 m w1 w2 ∧ NetM.predict m 0 w2 = .ok r w3 ∧
    NetM.compile m w3 = .ok () w4 ∧ (∃ h : Heap Int, w5 = { w4 with store := { w4.store with heap := h } }) ∧
    HasParams w5 m pv ∧ Holds w5.store.heap (w5.store.nodes 0).mat ⟨[1], fun _ => 0⟩ ∧
    NetM.predict m 0 w5 = .ok r' w6 ∧
    ¬ Holds w6.store.heap (w6.store.nodes r').mat (netFn [.dense 1 .linear] pv ⟨[1], fun _ => 0⟩) := by
  have hd : AllDense [LSpec.dense 1 (Activation.linear (T := Int))] := fun s hs => ⟨1, _, by simpa using hs⟩
  obtain ⟨m, w1, e, d, _, _, _, M, _⟩ :=
    wp_total (compiled_ok (w0 := world1) rfl (by show 0 < 2; omega) (fun s _ => ffGood_all s) (allDense_fits hd [1]).1)
  have hu := user_made M (n := 0) (by show 0 < 1; omega) (frozen_leaf rfl) world1_holds
  have L1 := live_steps M .none
  obtain ⟨h2, n2, v2, p2⟩ := live_setParams M L1 0
  have hst : Step world1 w1 m w1 { w1 with store := { w1.store with heap := h2 } } := by
    refine .use (.weights M.comp.last (ps := d.ps) ?_ n2 v2)
    rw [M.comp.par]; exact paramsOf_chain M.comp.chain
  have L2 := live_step M L1 hst
  have hu2 : UserTensor world1 w1 { w1 with store := { w1.store with heap := h2 } } 0 ⟨[1], fun _ => 0⟩ := by
    refine ⟨hu.1, hu.2.1.kept (le_of_eq n2.symm) fun q hq => ?_, hu.2.2⟩
    by_contra hne
    obtain ⟨p, a1, y, a2, a3⟩ := v2 q hne
    exact M.inside_par a1 a2 a3 (hu.2.2 q hq)
  obtain ⟨r, w3, w4, e3, e4, l4, ps4, f4, H⟩ := second_compile M L2 (allDense_fits hd [1]).2 hu2 rfl ((L2.hasParams M).2 p2)
  obtain ⟨h5, n5, v5, p5⟩ := setConst f4 1
  obtain ⟨t5, r5, w6, e6, H6⟩ := H h5 n5 v5
  refine ⟨w1, _, w3, w4, _, w6, m, r, r5, _, e, .more .none hst, e3, e4, ⟨h5, rfl⟩, ⟨_, _, l4, ps4.congr (fun _ => rfl) (fun _ => rfl), p5⟩, t5, e6, ?_⟩
  intro H6'
  have hps : ∃ a b : Mat, d.ps = [[a, b]] ∧ a.shape = [1, 1] ∧ b.shape = [1] := by
    have h1 := M.comp.pshape 0 _ rfl
    have h2 := M.comp.par
    simp only [List.length_cons, List.length_nil, Nat.zero_add, List.range_one, List.map_cons, List.map_nil, Nat.add_zero] at h2 h1
    rw [h2]
    generalize layerParams w1 (d.b + 1) = lp at h1
    simp only [LSpec.paramShapes, outShapes, size, List.take_zero] at h1
    rcases lp with _ | ⟨a, _ | ⟨b, _ | ⟨c, l⟩⟩⟩
    · simp at h1
    · simp at h1
    · simp at h1
      exact ⟨a, b, rfl, h1.1, h1.2⟩
    · simp at h1
  obtain ⟨a, b, hab, ha, hb⟩ := hps
  have g1 := H6.get [0] (by simp [hab, netFn, LSpec.fn, denseFn, hb, InRange])
  have g2 := H6'.get [0] (by simp [hab, netFn, LSpec.fn, denseFn, hb, InRange])
  rw [g1] at g2
  simp [hab, netFn, LSpec.fn, denseFn, ha, hb, size, Activation.linear, sum1] at g2
  revert g2; decide

end Godeep.Props
