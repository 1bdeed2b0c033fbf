import Verif.Props.Predict
import Verif.Props.MatReduce
import Verif.Props.SoftMaxField
/-
  C50, C51, C52, C53, C54: what the convolution, pooling, up-sampling and normalisation layers compute,
  as the results of `Predict` of a model with one such layer.  `C61_predict_sequential` composes them.
-/
set_option linter.unusedSectionVars false
set_option linter.style.haveILetI false

namespace Godeep.Props
open Godeep Spec GoNum

variable {T : Type} [GoNum T]

/-- `Predict` of a model with one layer -/
theorem predict_one (hlaw : eq (add zero one) (zero : T) = false) {shape : List Nat} {s : LSpec T} (hfit : s.fits shape)
    (hsafe : s.safe shape) {w0 : World T} (hpos : 0 < w0.store.heap.next) :
    ∃ m w1, compiled shape [s] w0 = .ok m w1 ∧ ∀ w2, Steps w0 w1 m w1 w2 →
      ∀ t x, UserTensor w0 w1 w2 t x → x.shape = shape → ∃ ps r w3, HasParams w2 m [ps] ∧
        ps.map STensor.shape = s.paramShapes shape ∧ NetM.predict m t w2 = .ok r w3 ∧ UserTensor w0 w1 w3 r (s.fn ps x) := by
  obtain ⟨m, w1, e, H⟩ := C61_predict_safe hlaw (ls := [s]) ⟨hfit, trivial⟩ ⟨hsafe, trivial⟩ hpos
  refine ⟨m, w1, e, fun w2 hst t x hu hs => ?_⟩
  obtain ⟨⟨pv, hp, hlen, hsh⟩, H2⟩ := H w2 hst
  obtain ⟨r, w3, e3, u3, _⟩ := H2 t x pv hu hs hp
  match pv, hlen with
  | [ps], _ => exact ⟨ps, r, w3, hp, hsh 0 s rfl, e3, u3⟩

theorem two_params {ps : List (STensor T)} {a b : List Nat} (h : ps.map STensor.shape = [a, b]) :
    ∃ k c, ps = [k, c] ∧ k.shape = a ∧ c.shape = b := by
  match ps, h with
  | [k, c], h => simp at h; exact ⟨k, c, rfl, h.1, h.2⟩

/-- C50: the output of `Conv2D` has extents `(in - k) / stride + 1`; element `(f, x, y)` is the activation
of the bias `(f, x, y)` plus the sum, over channels `c` and kernel positions `(i, j)` in row-major order, of
input `(c, x * sx + i, y * sy + j)` times weight `(f, c, i, j)`. -/
theorem C50_conv (hlaw : eq (add zero one) (zero : T) = false) {C H W nf kw kh sx sy : Nat} (act : Activation T)
    (hC : 0 < C) (hsx : 0 < sx) (hsy : 0 < sy) (hkw : 0 < kw) (hkh : 0 < kh) (hH : kw ≤ H) (hW : kh ≤ W)
    (hH' : H < 2 ^ 64) (hW' : W < 2 ^ 64) {w0 : World T} (hpos : 0 < w0.store.heap.next) :
    ∃ m w1, compiled [C, H, W] [.conv nf kw kh sx sy act] w0 = .ok m w1 ∧ ∀ w2, Steps w0 w1 m w1 w2 →
      ∀ t x, UserTensor w0 w1 w2 t x → x.shape = [C, H, W] → ∃ k b r w3 y, HasParams w2 m [[k, b]] ∧
        k.shape = [nf, C, kw, kh] ∧ b.shape = [nf, (H - kw) / sx + 1, (W - kh) / sy + 1] ∧
        NetM.predict m t w2 = .ok r w3 ∧ UserTensor w0 w1 w3 r y ∧
        y.shape = [nf, (H - kw) / sx + 1, (W - kh) / sy + 1] ∧
        ∀ f px py, f < nf → px < (H - kw) / sx + 1 → py < (W - kh) / sy + 1 →
          y.get [f, px, py] = act.activate (add (b.get [f, px, py])
            (sum1 (((List.range C).flatMap fun c => (List.range kw).flatMap fun i => (List.range kh).map fun j =>
              mul (x.get [c, px * sx + i, py * sy + j]) (k.get [f, c, i, j]))))) := by
  obtain ⟨m, w1, e, Hm⟩ := predict_one hlaw (shape := [C, H, W]) (s := .conv nf kw kh sx sy act)
    ⟨rfl, hsx, hsy, hkw, hkh, hH, hW, hH', hW'⟩ (Or.inl hC) hpos
  refine ⟨m, w1, e, fun w2 hst t x hu hs => ?_⟩
  obtain ⟨ps, r, w3, hp, hps, e3, u3⟩ := Hm w2 hst t x hu hs
  obtain ⟨k, b, rfl, hk, hb⟩ := two_params hps
  refine ⟨k, b, r, w3, _, hp, hk, hb, e3, u3, hb, fun f px py _ _ _ => ?_⟩
  show act.activate (add _ (sum1 ((allIdx [x.shape.getD 0 0, kw, kh]).map _))) = _
  rw [hs]
  congr 3
  simp only [List.map_eq_flatMap, allIdx, List.flatMap_assoc,
    List.flatMap_cons, List.flatMap_nil, List.append_nil]
  rfl

/-- C50, an instance -/
example : ∃ m w1 r w3, compiled [2, 4, 5] [.conv 3 2 3 1 2 .linear] (worldOf [2, 4, 5] (7 : Int)) = .ok m w1 ∧
    NetM.predict m 0 w1 = .ok r w3 := by
  obtain ⟨m, w1, e, u⟩ := worldOf_user (shape := [2, 4, 5]) (ls := [.conv 3 2 3 1 2 .linear]) (by decide) (by simp [Fits, LSpec.fits]) (7 : Int)
  obtain ⟨m', w1', e', H⟩ := C50_conv (C := 2) (H := 4) (W := 5) (nf := 3) (kw := 2) (kh := 3) (sx := 1) (sy := 2) (w0 := worldOf [2, 4, 5] (7 : Int)) (by decide) .linear (by decide) (by decide) (by decide) (by decide) (by decide) (by decide) (by decide) (by decide) (by decide) (by decide)
  rw [e] at e'
  cases e'
  obtain ⟨k, b, r, w3, y, _, _, _, e3, _⟩ := H w1 .none 0 _ u rfl
  exact ⟨m, w1, r, w3, e, e3⟩

/-- C51: element `(f, x, y)` of the output of `MaxPool2D` is the greatest of the elements `(f, i, j)` of the input
with `x * sx ≤ i < (x + 1) * sx` and `y * sy ≤ j < (y + 1) * sy`. -/
theorem C51_maxPool (hlaw : eq (add zero one) (zero : T) = false) (ho : WeakOrder T) {C H W sx sy : Nat}
    (hsx : 1 < sx) (hsy : 1 < sy) {w0 : World T} (hpos : 0 < w0.store.heap.next) :
    ∃ m w1, compiled [C, H, W] [.maxPool sx sy] w0 = .ok m w1 ∧ ∀ w2, Steps w0 w1 m w1 w2 →
      ∀ t x, UserTensor w0 w1 w2 t x → x.shape = [C, H, W] → ∃ r w3 y,
        NetM.predict m t w2 = .ok r w3 ∧ UserTensor w0 w1 w3 r y ∧ y.shape = [C, (H + 1) / sx, (W + 1) / sy] ∧
        ∀ f px py, f < C → px < (H + 1) / sx → py < (W + 1) / sy →
          (∃ i j, px * sx ≤ i ∧ i < (px + 1) * sx ∧ i < H ∧ py * sy ≤ j ∧ j < (py + 1) * sy ∧ j < W ∧
            y.get [f, px, py] = x.get [f, i, j]) ∧
          ∀ i j, px * sx ≤ i → i < (px + 1) * sx → i < H → py * sy ≤ j → j < (py + 1) * sy → j < W →
            lt (y.get [f, px, py]) (x.get [f, i, j]) = false := by
  obtain ⟨m, w1, e, Hm⟩ := predict_one hlaw (shape := [C, H, W]) (s := .maxPool sx sy)
    ⟨rfl, by omega, by omega⟩ (Or.inl ⟨hsx, hsy⟩) hpos
  refine ⟨m, w1, e, fun w2 hst t x hu hs => ?_⟩
  obtain ⟨ps, r, w3, hp, hps, e3, u3⟩ := Hm w2 hst t x hu hs
  refine ⟨r, w3, _, e3, u3, by simp [LSpec.fn, maxPoolFn, hs], fun f px py hf hx hy => ?_⟩
  show (∃ i j, _ ∧ _ ∧ _ ∧ _ ∧ _ ∧ _ ∧ max1 ((window sx sy (x.shape.getD 1 0) (x.shape.getD 2 0) px py).map
      fun p => x.get [f, p.1, p.2]) = _) ∧ ∀ i j, _ → _ → _ → _ → _ → _ → lt (max1 ((window sx sy (x.shape.getD 1 0) (x.shape.getD 2 0) px py).map
      fun p => x.get [f, p.1, p.2])) _ = false
  rw [hs]
  simp only [List.getD_cons_zero, List.getD_cons_succ]
  have hmem : ∀ i j, (i, j) ∈ window sx sy H W px py ↔
      (px * sx ≤ i ∧ i < (px + 1) * sx ∧ i < H) ∧ (py * sy ≤ j ∧ j < (py + 1) * sy ∧ j < W) := by
    intro i j
    rw [Nat.succ_mul, Nat.succ_mul]
    simp only [window, List.mem_flatMap, List.mem_filter, List.mem_map, List.mem_range, decide_eq_true_eq, Prod.mk.injEq]
    constructor
    · rintro ⟨a, ⟨h1, h2⟩, b, ⟨h3, h4⟩, rfl, rfl⟩; omega
    · rintro ⟨⟨h1, h2, h3⟩, h4, h5, h6⟩
      exact ⟨i - px * sx, by omega, j - py * sy, by omega, by omega, by omega⟩
  have hx0 : px * sx < H := by
    have h1 : (px + 1) * sx ≤ H + 1 := le_trans (Nat.mul_le_mul_right _ hx) (Nat.div_mul_le_self _ _)
    rw [Nat.succ_mul] at h1; omega
  have hy0 : py * sy < W := by
    have h1 : (py + 1) * sy ≤ W + 1 := le_trans (Nat.mul_le_mul_right _ hy) (Nat.div_mul_le_self _ _)
    rw [Nat.succ_mul] at h1; omega
  have h0 : (px * sx, py * sy) ∈ window sx sy H W px py := by
    rw [hmem, Nat.succ_mul, Nat.succ_mul]; omega
  obtain ⟨g1, g2⟩ := max1_spec ho ((window sx sy H W px py).map fun p => x.get [f, p.1, p.2])
    (fun h => by rw [List.map_eq_nil_iff] at h; rw [h] at h0; cases h0)
  constructor
  · obtain ⟨⟨i, j⟩, hij, he⟩ := List.mem_map.1 g1
    obtain ⟨⟨a1, a2, a3⟩, a4, a5, a6⟩ := (hmem i j).1 hij
    exact ⟨i, j, a1, a2, a3, a4, a5, a6, he.symm⟩
  · intro i j a1 a2 a3 a4 a5 a6
    exact g2 _ (List.mem_map.2 ⟨(i, j), (hmem i j).2 ⟨⟨a1, a2, a3⟩, a4, a5, a6⟩, rfl⟩)

theorem intOrder : WeakOrder Int :=
  ⟨fun a => by simp [GoNum.lt], fun a b c => by simp only [GoNum.lt, decide_eq_false_iff_not]; omega,
    fun a b => by simp only [GoNum.lt, decide_eq_false_iff_not, decide_eq_true_eq]; omega⟩

/-- C51, an instance -/
example : ∃ m w1 r w3, compiled [2, 4, 5] [.maxPool 2 3] (worldOf [2, 4, 5] (7 : Int)) = .ok m w1 ∧
    NetM.predict m 0 w1 = .ok r w3 := by
  obtain ⟨m, w1, e, u⟩ := worldOf_user (shape := [2, 4, 5]) (ls := [.maxPool 2 3]) (by decide) (by simp [Fits, LSpec.fits]) (7 : Int)
  obtain ⟨m', w1', e', H⟩ := C51_maxPool (C := 2) (H := 4) (W := 5) (sx := 2) (sy := 3) (w0 := worldOf [2, 4, 5] (7 : Int)) (by decide) intOrder (by decide) (by decide) (by decide)
  rw [e] at e'
  cases e'
  obtain ⟨r, w3, y, e3, _⟩ := H w1 .none 0 _ u rfl
  exact ⟨m, w1, r, w3, e, e3⟩

/-- C52: element `(f, x, y)` of the output of `UpSampling2D` is element `(f, x / s, y / s)` of the input.
Missing: different factors for the two dimensions, see `C52_upSampling2Dxy_pools`. -/
theorem C52_upSampling2D_partial (hlaw : eq (add zero one) (zero : T) = false) {C H W s : Nat} {w0 : World T}
    (hpos : 0 < w0.store.heap.next) :
    ∃ m w1, compiled [C, H, W] [.upSampling s] w0 = .ok m w1 ∧ ∀ w2, Steps w0 w1 m w1 w2 →
      ∀ t x, UserTensor w0 w1 w2 t x → x.shape = [C, H, W] → ∃ r w3 y,
        NetM.predict m t w2 = .ok r w3 ∧ UserTensor w0 w1 w3 r y ∧ y.shape = [C, H * s, W * s] ∧
        ∀ f px py, f < C → px < H * s → py < W * s →
          px / s < H ∧ py / s < W ∧ y.get [f, px, py] = x.get [f, px / s, py / s] := by
  obtain ⟨m, w1, e, Hm⟩ := predict_one hlaw (shape := [C, H, W]) (s := .upSampling s) rfl trivial hpos
  refine ⟨m, w1, e, fun w2 hst t x hu hs => ?_⟩
  obtain ⟨ps, r, w3, hp, hps, e3, u3⟩ := Hm w2 hst t x hu hs
  refine ⟨r, w3, _, e3, u3, by simp [LSpec.fn, upSamplingFn, hs], fun f px py _ hx hy => ⟨?_, ?_, rfl⟩⟩
  · exact Nat.div_lt_of_lt_mul (by rw [Nat.mul_comm]; exact hx)
  · exact Nat.div_lt_of_lt_mul (by rw [Nat.mul_comm]; exact hy)

/-- C52, an instance -/
example : ∃ m w1 r w3, compiled [2, 4, 5] [.upSampling 3] (worldOf [2, 4, 5] (7 : Int)) = .ok m w1 ∧
    NetM.predict m 0 w1 = .ok r w3 := by
  obtain ⟨m, w1, e, u⟩ := worldOf_user (shape := [2, 4, 5]) (ls := [.upSampling 3]) (by decide) (by simp [Fits, LSpec.fits]) (7 : Int)
  obtain ⟨m', w1', e', H⟩ := C52_upSampling2D_partial (C := 2) (H := 4) (W := 5) (s := 3) (w0 := worldOf [2, 4, 5] (7 : Int)) (by decide) (by decide)
  rw [e] at e'
  cases e'
  obtain ⟨r, w3, y, e3, _⟩ := H w1 .none 0 _ u rfl
  exact ⟨m, w1, r, w3, e, e3⟩

/-- C52 is false for `NewUpSampling2Dxy`: it makes the same layer as `NewMaxPool2D`. -/
theorem C52_upSampling2Dxy_pools (sx sy : Nat) : (LayerM.newUpSampling2Dxy sx sy : Run T Nat) = LayerM.newMaxPool2D sx sy := rfl

/-- C53: the output of `Deconv2D` has extents `(in - 1) * stride + k`; element `(f, x, y)` is the activation of the
bias `(f, x, y)` to which is added, for all channels `c`, input positions `(i, j)` and kernel positions `(u, v)` with
`i * sx + u = x` and `j * sy + v = y` in lexicographic order, input `(c, i, j)` times weight `(f, c, u, v)`. -/
theorem C53_deconv (hlaw : eq (add zero one) (zero : T) = false) {C H W nf kw kh sx sy : Nat} (act : Activation T)
    (hH : 0 < H) (hW : 0 < W) (hH' : H < 2 ^ 64) (hW' : W < 2 ^ 64) {w0 : World T} (hpos : 0 < w0.store.heap.next) :
    ∃ m w1, compiled [C, H, W] [.deconv nf kw kh sx sy act] w0 = .ok m w1 ∧ ∀ w2, Steps w0 w1 m w1 w2 →
      ∀ t x, UserTensor w0 w1 w2 t x → x.shape = [C, H, W] → ∃ k b r w3 y, HasParams w2 m [[k, b]] ∧
        k.shape = [nf, C, kw, kh] ∧ b.shape = [nf, (H - 1) * sx + kw, (W - 1) * sy + kh] ∧
        NetM.predict m t w2 = .ok r w3 ∧ UserTensor w0 w1 w3 r y ∧
        y.shape = [nf, (H - 1) * sx + kw, (W - 1) * sy + kh] ∧
        ∀ f px py, f < nf → px < (H - 1) * sx + kw → py < (W - 1) * sy + kh →
          y.get [f, px, py] = act.activate (((List.range C).flatMap fun c => (List.range H).flatMap fun i =>
            (List.range W).flatMap fun j => (List.range kw).flatMap fun u => (List.range kh).flatMap fun v =>
              if i * sx + u = px ∧ j * sy + v = py then [mul (x.get [c, i, j]) (k.get [f, c, u, v])] else []).foldl
                add (b.get [f, px, py])) := by
  obtain ⟨m, w1, e, Hm⟩ := predict_one hlaw (shape := [C, H, W]) (s := .deconv nf kw kh sx sy act)
    ⟨rfl, hH, hW, hH', hW'⟩ trivial hpos
  refine ⟨m, w1, e, fun w2 hst t x hu hs => ?_⟩
  obtain ⟨ps, r, w3, hp, hps, e3, u3⟩ := Hm w2 hst t x hu hs
  obtain ⟨k, b, rfl, hk, hb⟩ := two_params hps
  refine ⟨k, b, r, w3, _, hp, hk, hb, e3, u3, hb, fun f px py _ _ _ => ?_⟩
  show act.activate _ = _
  congr 1
  rw [hs]
  simp only [List.getD_cons_zero, List.getD_cons_succ]
  rw [← List.foldl_map (f := fun k' : List Nat => mul (x.get (k'.take 3)) (k.get [f, k'.getD 0 0, k'.getD 3 0, k'.getD 4 0])) (g := add)]
  congr 1
  have key : ∀ (l : List (List Nat)) (P : List Nat → Prop) [DecidablePred P] (g : List Nat → T),
      (l.filter P).map g = l.flatMap fun k' => if P k' then [g k'] else [] := by
    intro l P _ g
    induction l with
    | nil => rfl
    | cons a l ih =>
      rw [List.flatMap_cons, ← ih, List.filter_cons]
      split <;> rename_i h <;> simp at h <;> simp [h]
  rw [key]
  simp only [List.cons_append, List.nil_append, allIdx, List.map_cons, List.map_nil, List.flatMap_assoc, List.flatMap_map,
    List.flatMap_cons, List.flatMap_nil, List.append_nil]
  rfl

/-- C53, an instance -/
example : ∃ m w1 r w3, compiled [2, 4, 5] [.deconv 3 2 3 1 2 .linear] (worldOf [2, 4, 5] (7 : Int)) = .ok m w1 ∧
    NetM.predict m 0 w1 = .ok r w3 := by
  obtain ⟨m, w1, e, u⟩ := worldOf_user (shape := [2, 4, 5]) (ls := [.deconv 3 2 3 1 2 .linear]) (by decide) (by simp [Fits, LSpec.fits]) (7 : Int)
  obtain ⟨m', w1', e', H⟩ := C53_deconv (C := 2) (H := 4) (W := 5) (nf := 3) (kw := 2) (kh := 3) (sx := 1) (sy := 2) (w0 := worldOf [2, 4, 5] (7 : Int)) (by decide) .linear (by decide) (by decide) (by decide) (by decide) (by decide)
  rw [e] at e'
  cases e'
  obtain ⟨k, b, r, w3, y, _, _, _, e3, _⟩ := H w1 .none 0 _ u rfl
  exact ⟨m, w1, r, w3, e, e3⟩

/-! ### normalisation -/

section field

variable {K : Type} [Field K] [LinearOrder K] [IsStrictOrderedRing K]

theorem normFn_range (mn mx : K) (x : STensor K) (i : List Nat) (hi : InRange x.shape i) (hne : x.get i ≠ 0)
    (k : List Nat) (hk : InRange x.shape k) :
    letI := fieldNum K
    ∃ r : K, -1 ≤ r ∧ r ≤ 1 ∧ (normFn mn mx x).get k = r * (mx - mn) + mn ∧ (0 ≤ x.get k → 0 ≤ r) ∧ (x.get k < 0 → r < 0) := by
  letI := fieldNum K
  set f : K → K := fun v => if lt v zero then GoNum.neg v else v with hf
  have habs : ∀ v, f v = |v| := fun v => by
    show (if decide (v < 0) = true then -v else v) = |v|
    simp only [decide_eq_true_eq]
    split
    · next h => rw [abs_of_neg h]
    · next h => rw [abs_of_nonneg (not_lt.1 h)]
  have hmem : ∀ j, InRange x.shape j → f (x.get j) ∈ x.flat.map f := fun j hj =>
    List.mem_map.2 ⟨_, List.mem_map.2 ⟨j, mem_allIdx.2 hj, rfl⟩, rfl⟩
  obtain ⟨g1, g2⟩ := max1_spec (fieldNum_weakOrder (K := K)) (x.flat.map f) (List.ne_nil_of_mem (hmem i hi))
  set s := max1 (x.flat.map f) with hs
  have hle : ∀ j, InRange x.shape j → |x.get j| ≤ s := fun j hj => by
    have := g2 _ (hmem j hj)
    rw [habs] at this
    simpa [GoNum.lt] using this
  have hs0 : 0 < s := lt_of_lt_of_le (abs_pos.2 hne) (hle i hi)
  refine ⟨x.get k / s, ?_, ?_, rfl, fun h0 => div_nonneg h0 hs0.le, fun h0 => div_neg_of_neg_of_pos h0 hs0⟩
  · rw [le_div_iff₀ hs0, neg_one_mul]; exact (abs_le.1 (hle k hk)).1
  · rw [div_le_one hs0]; exact (abs_le.1 (hle k hk)).2

/-- `Predict` of a model with one `Norm` (`ENorm` if `e`) layer, in exact arithmetic -/
theorem predict_norm (e : Bool) {shape : List Nat} (hsz : size shape ≠ 0) :
    letI := fieldNum K
    ∀ {w0 : World K}, 0 < w0.store.heap.next →
    ∃ m w1, compiled shape [if e then .eNorm else .norm] w0 = .ok m w1 ∧ ∀ w2, Steps w0 w1 m w1 w2 →
      ∀ t x, UserTensor w0 w1 w2 t x → x.shape = shape → ∃ r w3,
        NetM.predict m t w2 = .ok r w3 ∧ UserTensor w0 w1 w3 r (normFn (if e then -1 else 0) 1 x) := by
  letI := fieldNum K
  intro w0 hpos
  obtain ⟨m, w1, h1, H⟩ := predict_one (s := if e then .eNorm else .norm) (shape := shape) 
    (by show decide ((0 : K) + 1 = 0) = false; simp)
    (by cases e <;> trivial) (by cases e <;> exact ⟨hsz, fun _ _ => rfl⟩) hpos
  refine ⟨m, w1, h1, fun w2 hst t x hu hs => ?_⟩
  obtain ⟨ps, r, w3, _, _, h2, h3⟩ := H w2 hst t x hu hs
  refine ⟨r, w3, h2, ?_⟩
  cases e <;> exact h3

/-- C54, what holds: in exact arithmetic, if the elements of the input are not all 0, `Norm` maps them into `[-1, 1]`
and the non-negative ones into `[0, 1]`.  Missing: negative elements, see `C54_norm_negative`. -/
theorem C54_norm_partial {shape : List Nat} (hsz : size shape ≠ 0) :
    letI := fieldNum K
    ∀ {w0 : World K}, 0 < w0.store.heap.next →
    ∃ m w1, compiled shape [.norm] w0 = .ok m w1 ∧ ∀ w2, Steps w0 w1 m w1 w2 →
      ∀ t x, UserTensor w0 w1 w2 t x → x.shape = shape → (∃ i, InRange shape i ∧ x.get i ≠ 0) → ∃ r w3 y,
        NetM.predict m t w2 = .ok r w3 ∧ UserTensor w0 w1 w3 r y ∧ y.shape = shape ∧
        ∀ k, InRange shape k → -1 ≤ y.get k ∧ y.get k ≤ 1 ∧ (0 ≤ x.get k → 0 ≤ y.get k) := by
  letI := fieldNum K
  intro w0 hpos
  obtain ⟨m, w1, h1, H⟩ := predict_norm false hsz hpos
  refine ⟨m, w1, h1, fun w2 hst t x hu hs ⟨i, hi, hne⟩ => ?_⟩
  obtain ⟨r, w3, h2, h3⟩ := H w2 hst t x hu hs
  refine ⟨r, w3, _, h2, h3, hs, fun k hk => ?_⟩
  obtain ⟨q, a1, a2, a3, a4, _⟩ := normFn_range (0 : K) 1 x i (hs ▸ hi) hne k (hs ▸ hk)
  have e : (normFn (if false = true then -1 else 0) (1 : K) x).get k = q := by
    rw [if_neg (by simp), a3]; ring
  rw [e]
  exact ⟨a1, a2, a4⟩

/-- C54 is false: `Norm` maps every negative element to a negative number. -/
theorem C54_norm_negative {shape : List Nat} (hsz : size shape ≠ 0) :
    letI := fieldNum K
    ∀ {w0 : World K}, 0 < w0.store.heap.next →
    ∃ m w1, compiled shape [.norm] w0 = .ok m w1 ∧ ∀ w2, Steps w0 w1 m w1 w2 →
      ∀ t x, UserTensor w0 w1 w2 t x → x.shape = shape → ∃ r w3 y,
        NetM.predict m t w2 = .ok r w3 ∧ UserTensor w0 w1 w3 r y ∧
        ∀ k, InRange shape k → x.get k < 0 → y.get k < 0 := by
  letI := fieldNum K
  intro w0 hpos
  obtain ⟨m, w1, h1, H⟩ := predict_norm false hsz hpos
  refine ⟨m, w1, h1, fun w2 hst t x hu hs => ?_⟩
  obtain ⟨r, w3, h2, h3⟩ := H w2 hst t x hu hs
  refine ⟨r, w3, _, h2, h3, fun k hk hneg => ?_⟩
  obtain ⟨q, _, _, a3, _, a5⟩ := normFn_range (0 : K) 1 x k (hs ▸ hk) hneg.ne k (hs ▸ hk)
  have e : (normFn (if false = true then -1 else 0) (1 : K) x).get k = q := by
    rw [if_neg (by simp), a3]; ring
  rw [e]
  exact a5 hneg

/-- C54, what holds for `ENorm`: `[-3, 1]`, and `[-1, 1]` for the non-negative elements.  Missing: negative elements,
see `C54_eNorm_negative`. -/
theorem C54_eNorm_partial {shape : List Nat} (hsz : size shape ≠ 0) :
    letI := fieldNum K
    ∀ {w0 : World K}, 0 < w0.store.heap.next →
    ∃ m w1, compiled shape [.eNorm] w0 = .ok m w1 ∧ ∀ w2, Steps w0 w1 m w1 w2 →
      ∀ t x, UserTensor w0 w1 w2 t x → x.shape = shape → (∃ i, InRange shape i ∧ x.get i ≠ 0) → ∃ r w3 y,
        NetM.predict m t w2 = .ok r w3 ∧ UserTensor w0 w1 w3 r y ∧ y.shape = shape ∧
        ∀ k, InRange shape k → -3 ≤ y.get k ∧ y.get k ≤ 1 ∧ (0 ≤ x.get k → -1 ≤ y.get k) := by
  letI := fieldNum K
  intro w0 hpos
  obtain ⟨m, w1, h1, H⟩ := predict_norm true hsz hpos
  refine ⟨m, w1, h1, fun w2 hst t x hu hs ⟨i, hi, hne⟩ => ?_⟩
  obtain ⟨r, w3, h2, h3⟩ := H w2 hst t x hu hs
  refine ⟨r, w3, _, h2, h3, hs, fun k hk => ?_⟩
  obtain ⟨q, a1, a2, a3, a4, _⟩ := normFn_range (-1 : K) 1 x i (hs ▸ hi) hne k (hs ▸ hk)
  have e : (normFn (if true = true then -1 else 0) (1 : K) x).get k = 2 * q - 1 := by
    rw [if_pos rfl, a3]; ring
  rw [e]
  exact ⟨by linarith, by linarith, fun h => by have := a4 h; linarith⟩

/-- C54 is false: `ENorm` maps every negative element to a number below -1. -/
theorem C54_eNorm_negative {shape : List Nat} (hsz : size shape ≠ 0) :
    letI := fieldNum K
    ∀ {w0 : World K}, 0 < w0.store.heap.next →
    ∃ m w1, compiled shape [.eNorm] w0 = .ok m w1 ∧ ∀ w2, Steps w0 w1 m w1 w2 →
      ∀ t x, UserTensor w0 w1 w2 t x → x.shape = shape → ∃ r w3 y,
        NetM.predict m t w2 = .ok r w3 ∧ UserTensor w0 w1 w3 r y ∧
        ∀ k, InRange shape k → x.get k < 0 → y.get k < -1 := by
  letI := fieldNum K
  intro w0 hpos
  obtain ⟨m, w1, h1, H⟩ := predict_norm true hsz hpos
  refine ⟨m, w1, h1, fun w2 hst t x hu hs => ?_⟩
  obtain ⟨r, w3, h2, h3⟩ := H w2 hst t x hu hs
  refine ⟨r, w3, _, h2, h3, fun k hk hneg => ?_⟩
  obtain ⟨q, _, _, a3, _, a5⟩ := normFn_range (-1 : K) 1 x k (hs ▸ hk) hneg.ne k (hs ▸ hk)
  have e : (normFn (if true = true then -1 else 0) (1 : K) x).get k = 2 * q - 1 := by
    rw [if_pos rfl, a3]; ring
  rw [e]
  have := a5 hneg
  linarith

end field

/-- C54 fails, an instance: `Norm` of two elements -5 -/
example :
    letI := fieldNum ℚ
    ∃ m w1 r w3 y, compiled [2] [.norm] (worldOf [2] (-5 : ℚ)) = .ok m w1 ∧ NetM.predict m 0 w1 = .ok r w3 ∧
      UserTensor (worldOf [2] (-5 : ℚ)) w1 w3 r y ∧ y.get [0] < 0 := by
  letI := fieldNum ℚ
  obtain ⟨m, w1, e, u⟩ := worldOf_user (ls := [.norm]) (shape := [2]) (by show decide ((0 : ℚ) + 1 = 0) = false; simp) (by simp [Fits, LSpec.fits]) (-5 : ℚ)
  obtain ⟨m', w1', e', H⟩ := C54_norm_negative (K := ℚ) (shape := [2]) (by decide) (w0 := worldOf [2] (-5 : ℚ)) (by decide)
  rw [e] at e'
  cases e'
  obtain ⟨r, w3, y, e3, u3, h3⟩ := H w1 .none 0 _ u rfl
  exact ⟨m, w1, r, w3, y, e, e3, u3, h3 [0] (.cons (by decide) .nil) (by norm_num)⟩

end Godeep.Props
