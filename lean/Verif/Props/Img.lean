import Verif.Lemmas.Img
import Verif.Lemmas.Fin3
/-
  C56, C57: scaling images.
-/
set_option linter.unusedSectionVars false
namespace Godeep.Props
open Godeep Spec GoNum

variable {T : Type} [GoNum T]

/-- the image with pixel `(d, x, y)` taken from `(d, sx x, sy y)` -/
def resampled (t : STensor T) (depth w hh : Nat) (sx sy : Nat → Nat) : STensor T :=
  ⟨[depth, w, hh], fun i => t.get [i.getD 0 0, sx (i.getD 1 0), sy (i.getD 2 0)]⟩

theorem inRange3 {a b c x y z : Nat} : InRange [a, b, c] [x, y, z] ↔ x < a ∧ y < b ∧ z < c := by
  simp [InRange]

theorem inRange_three {a b c : Nat} {i : List Nat} (h : InRange [a, b, c] i) :
    ∃ x y z, i = [x, y, z] ∧ x < a ∧ y < b ∧ z < c := by
  have hl := (inRange_iff.1 h).1
  obtain ⟨x, y, z, rfl⟩ : ∃ x y z, i = [x, y, z] := by
    rcases i with _ | ⟨x, _ | ⟨y, _ | ⟨z, _ | ⟨u, i⟩⟩⟩⟩ <;> simp at hl ⊢
  exact ⟨x, y, z, rfl, inRange3.1 h⟩

/-- both functions fill a new tensor pixel by pixel -/
theorem fill_pixels {h : Heap T} {m : Mat} {img : Mat} {t : STensor T} {D4 w hh D : Nat}
    (H : Holds h m ⟨[D4, w, hh], fun _ => (zero : T)⟩) (hnd : m.ops.Nodup) (S : Holds h img t)
    (hdis : ∀ q ∈ img.ops, q ∉ m.ops) (f : Nat × Nat × Nat → Heap T → Out (Heap T) Unit)
    (v : Nat → Nat → Nat → T)
    (hf : ∀ p ∈ triples w hh D, ∀ h1, Holds h1 img t → f p h1 = Img.ignoreErr (m.set (v p.2.2 p.1 p.2.1) [p.2.2, p.1, p.2.1] h1)) :
    ∃ h', Img.each (triples w hh D) f h = .ok () h' ∧
      Holds h' m ⟨[D4, w, hh], fun i => if i.getD 0 0 < D then v (i.getD 0 0) (i.getD 1 0) (i.getD 2 0) else zero⟩ ∧
      h'.next = h.next ∧ ∀ q, q ∉ m.ops → h'.val q = h.val q := by
  have K := imgEach_ok (f := f)
    (fun d h1 => Holds h1 m ⟨[D4, w, hh], fun i =>
        if ∃ p ∈ d, i = [p.2.2, p.1, p.2.1] then v (i.getD 0 0) (i.getD 1 0) (i.getD 2 0) else zero⟩ ∧
      h1.next = h.next ∧ ∀ q, q ∉ m.ops → h1.val q = h.val q) (triples w hh D) ?_ (h := h)
      ⟨by simpa using H, rfl, fun _ _ => rfl⟩
  · obtain ⟨h', e, H1, H2, H3⟩ := K
    refine ⟨h', e, ?_, H2, H3⟩
    refine ⟨H1.shape, H1.mul, H1.len, H1.valid, fun i hi => ?_⟩
    rw [H1.get i hi]
    obtain ⟨k, x, y, rfl, b1, b2, b3⟩ := inRange_three hi
    simp only [List.getD_cons_zero, List.getD_cons_succ]
    congr 1
    by_cases hk : k < D
    · rw [if_pos hk, if_pos ⟨(x, y, k), mem_triples.2 ⟨b2, b3, hk⟩, rfl⟩]
    · rw [if_neg hk, if_neg]
      rintro ⟨⟨x', y', k'⟩, hp, he⟩
      obtain ⟨-, -, c3⟩ := mem_triples.1 hp
      simp only [List.cons.injEq] at he
      omega
  · rintro d p r hd h1 ⟨I1, I2, I3⟩
    have S1 : Holds h1 img t := by
      refine ⟨S.shape, S.mul, S.len, fun q hq => ?_, fun i hi => ?_⟩
      · have := S.valid q hq; exact ⟨this.1, by rw [I2]; exact this.2⟩
      · rw [← S.get i hi]
        unfold Mat.get
        cases ho : img.getOperand i with
        | ok q =>
          have hq : q ∈ img.ops := getOperand_mem ho
          simp only [Res.bind_ok, Heap.load]
          rw [I3 q (hdis q hq)]
        | err e => rfl
        | panic => rfl
    have hp : p ∈ triples w hh D := by rw [hd]; simp
    rw [hf p hp h1 S1]
    obtain ⟨h2, e2, J1, J2, J3⟩ := ignored_set I1 hnd (v p.2.2 p.1 p.2.1) (idx := [p.2.2, p.1, p.2.1]) rfl
    refine ⟨h2, e2, ?_, by rw [J2, I2], fun q hq => by rw [J3 q hq, I3 q hq]⟩
    refine ⟨J1.shape, J1.mul, J1.len, J1.valid, fun i hi => ?_⟩
    rw [J1.get i hi]
    simp only
    congr 1
    by_cases hc : i = [p.2.2, p.1, p.2.1]
    · rw [if_pos hc, if_pos ⟨p, by simp, hc⟩, hc]; rfl
    · rw [if_neg hc]
      congr 1
      simp only [List.mem_append, List.mem_singleton, eq_iff_iff]
      constructor
      · rintro ⟨q, hq, he⟩; exact ⟨q, Or.inl hq, he⟩
      · rintro ⟨q, hq | rfl, he⟩
        · exact ⟨q, hq, he⟩
        · exact absurd he hc

/-- `SimpleScale` of an image (not empty, fewer than 2^52 pixels per side) succeeds; the result is a
new tensor whose pixel `(d, x, y)` is the source pixel at the coordinates computed by `srcCoord`. -/
theorem simpleScale_ok (img : Mat) (t : STensor T) (h : Heap T) (H : Holds h img t) (hpos : 0 < h.next)
    {D W Hh : Nat} (hs : t.shape = [D, W, Hh]) (hW : 0 < W) (hH : 0 < Hh) (bW : W ≤ 2 ^ 53) (bH : Hh ≤ 2 ^ 53)
    (w hh : Nat) (bw : w ≤ 2 ^ 52) (bh : hh ≤ 2 ^ 52) :
    ∃ r h', Img.simpleScale img w hh h = .ok r h' ∧
      NewTensor h h' r (resampled t D w hh (srcCoord W w) (srcCoord Hh hh)) := by
  have hsh : img.shape = [D, W, Hh] := by rw [H.shape, hs]
  obtain ⟨m, h1, e1, N⟩ := C05_newZeros (T := T) [D, w, hh] h hpos
  have hdis : ∀ q ∈ img.ops, q ∉ m.ops := fun q h1 h2 => by
    have := (H.valid q h1).2; have := N.fresh q h2; omega
  have K := fill_pixels (D := D) N.holds N.nodup (H.extends N.frame) hdis
    (fun p h => (Out.ofRes h (img.get [p.2.2, srcCoord W w p.1, srcCoord Hh hh p.2.1] h)).bind fun c h =>
            Img.ignoreErr (m.set c [p.2.2, p.1, p.2.1] h))
    (fun d x y => t.get [d, srcCoord W w x, srcCoord Hh hh y]) ?_
  · obtain ⟨h2, e2, F1, F2, F3⟩ := K
    refine ⟨m, h2, ?_, ?_, ?_, N.fresh, N.nodup⟩
    · unfold Img.simpleScale
      rw [hsh]
      simp only [e1, Out.bind_ok]
      rw [imgEach_triples]
      exact congrArg (Out.map _) e2
    · refine ⟨F1.shape, F1.mul, F1.len, F1.valid, fun i hi => ?_⟩
      rw [F1.get i hi]
      obtain ⟨k, x, y, rfl, b1, b2, b3⟩ := inRange_three hi
      simp only [List.getD_cons_zero, List.getD_cons_succ, b1, if_true, resampled]
    · refine ⟨by rw [F2]; exact N.frame.next, fun q hq => ?_⟩
      rw [F3 q (fun hm => by have := N.fresh q hm; omega), N.frame.val q hq]
  · rintro ⟨x, y, k⟩ hp h3 H3
    obtain ⟨b1, b2, b3⟩ := mem_triples.1 hp
    have hr : InRange t.shape [k, srcCoord W w x, srcCoord Hh hh y] := by
      rw [hs]; exact inRange3.2 ⟨b3, srcCoord_lt bW bw b1 hW, srcCoord_lt bH bh b2 hH⟩
    simp only
    rw [H3.get _ hr]; rfl

/-- `SimpleScale` of a non-empty three-dimensional image never fails, and every pixel of the new image is
a source pixel: the one at `floor(x*W/w)`, except that where `x*W/w` is a whole number the pixel before it
may be used.  (Missing: it is not always the one at `floor(x*W/w)`, see the next theorem.) -/
theorem C56_simpleScale_partial (img : Mat) (t : STensor T) (h : Heap T) (H : Holds h img t) (hpos : 0 < h.next)
    (D W Hh : Nat) (hs : t.shape = [D, W, Hh]) (hW : 0 < W) (hH : 0 < Hh) (w hh : Nat)
    (bW : w * W ≤ 2 ^ 51) (bH : hh * Hh ≤ 2 ^ 51) (hw : 0 < w) (hhp : 0 < hh) :
    ∃ r h' sx sy, Img.simpleScale img w hh h = .ok r h' ∧ NewTensor h h' r (resampled t D w hh sx sy) ∧
      (∀ x < w, sx x < W ∧ (sx x = x * W / w ∨ (w ∣ x * W ∧ sx x + 1 = x * W / w))) ∧
      (∀ y < hh, sy y < Hh ∧ (sy y = y * Hh / hh ∨ (hh ∣ y * Hh ∧ sy y + 1 = y * Hh / hh))) := by
  have a1 : W ≤ 2 ^ 51 := le_trans (Nat.le_mul_of_pos_left W hw) bW
  have a2 : Hh ≤ 2 ^ 51 := le_trans (Nat.le_mul_of_pos_left Hh hhp) bH
  have a3 : w ≤ 2 ^ 51 := le_trans (Nat.le_mul_of_pos_right w hW) bW
  have a4 : hh ≤ 2 ^ 51 := le_trans (Nat.le_mul_of_pos_right hh hH) bH
  obtain ⟨r, h', e, N⟩ := simpleScale_ok img t h H hpos hs hW hH (by omega) (by omega) w hh (by omega) (by omega)
  refine ⟨r, h', _, _, e, N, fun x hx => ⟨srcCoord_lt (by omega) (by omega) hx hW, ?_⟩, fun y hy =>
    ⟨srcCoord_lt (by omega) (by omega) hy hH, ?_⟩⟩
  · exact srcCoord_floor (by omega) (by omega) hx
      (lt_of_lt_of_le (Nat.mul_lt_mul_of_pos_right hx hW) bW)
  · exact srcCoord_floor (by omega) (by omega) hy
      (lt_of_lt_of_le (Nat.mul_lt_mul_of_pos_right hy hH) bH)

/-- scaling to the same size returns a copy -/
theorem C56_simpleScale_same_size (img : Mat) (t : STensor T) (h : Heap T) (H : Holds h img t) (hpos : 0 < h.next)
    (D W Hh : Nat) (hs : t.shape = [D, W, Hh]) (hW : 0 < W) (hH : 0 < Hh) (bW : W ≤ 2 ^ 52) (bH : Hh ≤ 2 ^ 52) :
    ∃ r h', Img.simpleScale img W Hh h = .ok r h' ∧ NewTensor h h' r t := by
  obtain ⟨r, h', e, N⟩ := simpleScale_ok img t h H hpos hs hW hH (by omega) (by omega) W Hh bW bH
  refine ⟨r, h', e, ⟨?_, N.holds.mul, N.holds.len, N.holds.valid, fun i hi => ?_⟩, N.frame, N.fresh, N.nodup⟩
  · rw [N.holds.shape, hs]; rfl
  · have hi' : InRange [D, W, Hh] i := by rw [← hs]; exact hi
    rw [N.holds.get i hi']
    obtain ⟨k, x, y, rfl, b1, b2, b3⟩ := inRange_three hi'
    simp only [resampled, List.getD_cons_zero, List.getD_cons_succ]
    rw [srcCoord_same (by omega) b2, srcCoord_same (by omega) b3]

theorem fl64_eval {q : ℚ} {e m : ℤ} (hq : 0 < q) (h1 : (2 : ℚ) ^ (e + 52) ≤ q) (h2 : q < 2 ^ (e + 53))
    (hm : halfEven (q / 2 ^ e) = m) : fl64 q = m * 2 ^ e := by
  have hl : Int.log 2 q = e + 52 := by
    have a := (Int.zpow_le_iff_le_log (b := 2) (by norm_num) hq (x := e + 52)).1 (by exact_mod_cast h1)
    have b := (Int.lt_zpow_iff_log_lt (b := 2) (by norm_num) hq (x := e + 53)).1 (by exact_mod_cast h2)
    omega
  unfold fl64
  rw [if_neg hq.ne', abs_of_pos hq, hl, show e + 52 - 52 = e by ring, hm]

/-- in floating point, 49 times 1/49 is less than 1 -/
theorem srcCoord_2_98_49 : srcCoord 2 98 49 = 0 := by
  have e1 : fl64 ((2 : ℕ) : ℚ) = 2 := by rw [fl64_nat (by norm_num)]; norm_num
  have e2 : fl64 ((98 : ℕ) : ℚ) = 98 := by rw [fl64_nat (by norm_num)]; norm_num
  have e3 : fl64 ((49 : ℕ) : ℚ) = 49 := by rw [fl64_nat (by norm_num)]; norm_num
  have e4 : fl64 (2 / 98) = (5882252574524729 : ℤ) * 2 ^ (-58 : ℤ) := by
    refine fl64_eval (by norm_num) (by norm_num) (by norm_num) ?_
    have : ((2 : ℚ) / 98 / 2 ^ (-58 : ℤ)) = 288230376151711744 / 49 := by norm_num
    rw [this]
    unfold halfEven
    norm_num
  have e5 : fl64 (49 * ((5882252574524729 : ℤ) * 2 ^ (-58 : ℤ))) = (9007199254740991 : ℤ) * 2 ^ (-53 : ℤ) := by
    refine fl64_eval (by norm_num) (by norm_num) (by norm_num) ?_
    norm_num
    unfold halfEven
    norm_num
  unfold srcCoord
  rw [e1, e2, e3, e4, e5]
  unfold truncNat
  norm_num

/-- The full statement fails: in a picture of 2 columns scaled to 98 columns, column 49 is a copy of column
0, although `floor(49*2/98) = 1`. -/
theorem C56_simpleScale_not_floor :
    ¬ ∀ (img : Mat) (t : STensor ℤ) (h : Heap ℤ) (_ : Holds h img t) (_ : 0 < h.next) (D W Hh w hh : Nat)
        (_ : t.shape = [D, W, Hh]) (_ : 0 < W) (_ : 0 < Hh) (_ : w * W ≤ 2 ^ 51) (_ : hh * Hh ≤ 2 ^ 51),
      ∃ r h', Img.simpleScale img w hh h = .ok r h' ∧
        NewTensor h h' r (resampled t D w hh (fun x => x * W / w) (fun y => y * Hh / hh)) := by
  intro hall
  obtain ⟨m, h1, e1, N⟩ := C05_newFromValues [10, 20] [1, 2, 1] (⟨fun _ => (0 : ℤ), 1⟩ : Heap ℤ) (by norm_num)
  have hp : 0 < h1.next := lt_of_lt_of_le (by norm_num) N.frame.next
  obtain ⟨r, h2, e2, N2⟩ := hall m _ h1 N.holds hp 1 2 1 98 1 rfl (by norm_num) (by norm_num) (by norm_num) (by norm_num)
  obtain ⟨r', h2', e2', N2'⟩ := simpleScale_ok m _ h1 N.holds hp (D := 1) (W := 2) (Hh := 1) rfl (by norm_num) (by norm_num)
    (by norm_num) (by norm_num) 98 1 (by norm_num) (by norm_num)
  rw [e2] at e2'
  injection e2' with a b
  subst a; subst b
  have hr : InRange [1, 98, 1] [0, 49, 0] := inRange3.2 (by norm_num)
  have g1 := N2.holds.get [0, 49, 0] hr
  have g2 := N2'.holds.get [0, 49, 0] hr
  rw [g1] at g2
  have hy : srcCoord 1 1 0 = 0 := srcCoord_same (by norm_num) (by norm_num)
  simp only [resampled, List.getD_cons_zero, List.getD_cons_succ, srcCoord_2_98_49, hy, STensor.ofValues,
    offset, size] at g2
  norm_num at g2

/-- the hypotheses of `C56_simpleScale_partial` are met by a 3-channel 4x5 picture scaled to 6x2 -/
example : ∃ (img : Mat) (t : STensor ℤ) (h : Heap ℤ), Holds h img t ∧ 0 < h.next ∧ t.shape = [3, 4, 5] ∧
    6 * 4 ≤ 2 ^ 51 ∧ 2 * 5 ≤ 2 ^ 51 := by
  obtain ⟨m, h1, e1, N⟩ := C05_newFromValues (List.range 60 |>.map Int.ofNat) [3, 4, 5]
    (⟨fun _ => (0 : ℤ), 1⟩ : Heap ℤ) (by norm_num)
  exact ⟨m, _, h1, N.holds, lt_of_lt_of_le (by norm_num) N.frame.next, rfl, by norm_num, by norm_num⟩

/-! ### C57 -/

theorem srcCoord_inside {s t x : Nat} (hx : x < t) (hst : t < s) (hb : t * s ≤ 2 ^ 51) : srcCoord s t x + 1 < s := by
  have hs : 0 < s := by omega
  have a1 : s ≤ 2 ^ 51 := le_trans (Nat.le_mul_of_pos_left s (by omega)) hb
  have hxs : x * s < 2 ^ 51 := lt_of_lt_of_le (Nat.mul_lt_mul_of_pos_right hx hs) hb
  have h1 : x * s / t + 1 < s := by
    have hx1 : x * s ≤ (t - 1) * s := Nat.mul_le_mul_right _ (by omega)
    have h2 : (t - 1) * s = t * s - s := by rw [Nat.sub_mul, Nat.one_mul]
    have h3 : (s - 1) * t = t * s - t := by rw [Nat.sub_mul, Nat.one_mul, Nat.mul_comm]
    have h4 : s ≤ t * s := Nat.le_mul_of_pos_left s (by omega)
    have : x * s < (s - 1) * t := by omega
    have := (Nat.div_lt_iff_lt_mul (by omega : 0 < t)).2 this
    omega
  rcases srcCoord_floor (by omega) (by omega) hx hxs with h | ⟨_, h⟩ <;> omega

theorem srcCoord_last {s t : Nat} (hs : 0 < s) (hst : s ≤ t) (hb : t * s ≤ 2 ^ 51) : srcCoord s t (t - 1) + 1 = s := by
  have a2 : t ≤ 2 ^ 51 := le_trans (Nat.le_mul_of_pos_right t hs) hb
  rcases hst.eq_or_lt with rfl | hlt
  · rw [srcCoord_same (by omega) (by omega)]; omega
  have h2 : (t - 1) * s = t * s - s := by rw [Nat.sub_mul, Nat.one_mul]
  have h4 : t ≤ t * s := Nat.le_mul_of_pos_right t hs
  have e : (t - 1) * s = (t - s) + t * (s - 1) := by
    have : t * (s - 1) = t * s - t := by rw [Nat.mul_sub, Nat.mul_one]
    rw [this, h2]; omega
  have h1 : (t - 1) * s / t = s - 1 := by
    rw [e, Nat.add_mul_div_left _ _ (by omega), Nat.div_eq_of_lt (by omega)]; omega
  have hxs : (t - 1) * s < 2 ^ 51 := by omega
  rcases srcCoord_floor (s := s) (t := t) (x := t - 1) (by omega) (by omega) (by omega) hxs with h | ⟨⟨k, hk⟩, h⟩
  · omega
  · exfalso
    rw [e] at hk
    have : t ∣ t - s := by
      have hd : t ∣ (t - s) + t * (s - 1) := ⟨k, hk⟩
      exact (Nat.dvd_add_left (Dvd.intro _ rfl)).1 hd
    have := Nat.le_of_dvd (by omega) this
    omega

variable [Conv T]

/-- the two weights of the interpolation, as the code computes them -/
def frac (s t x : Nat) : ℚ := fl64 (fl64 (fl64 x * fl64 (fl64 s / fl64 t)) - fl64 (srcCoord s t x))

theorem smoothScale_blend (img : Mat) (t : STensor T) (h : Heap T) (H : Holds h img t) (hpos : 0 < h.next)
    (D W Hh : Nat) (hs : t.shape = [D, W, Hh]) (w hh : Nat) (hw : w < W) (hhh : hh < Hh)
    (bW : w * W ≤ 2 ^ 51) (bH : hh * Hh ≤ 2 ^ 51) :
    ∃ r h', Img.smoothScale img w hh h = .ok r h' ∧ NewTensor h h' r ⟨[4, w, hh], fun i =>
      if i.getD 0 0 < D then
        let d := i.getD 0 0
        let x := srcCoord W w (i.getD 1 0)
        let y := srcCoord Hh hh (i.getD 2 0)
        Img.blend (frac W w (i.getD 1 0)) (frac Hh hh (i.getD 2 0)) (t.get [d, x, y]) (t.get [d, x + 1, y])
          (t.get [d, x, y + 1]) (t.get [d, x + 1, y + 1])
      else zero⟩ := by
  have hsh : img.shape = [D, W, Hh] := by rw [H.shape, hs]
  obtain ⟨m, h1, e1, N⟩ := C05_newZeros (T := T) [4, w, hh] h hpos
  have hdis : ∀ q ∈ img.ops, q ∉ m.ops := fun q h1 h2 => by
    have := (H.valid q h1).2; have := N.fresh q h2; omega
  have K := fill_pixels (D := D) N.holds N.nodup (H.extends N.frame) hdis
    (fun p h =>
      (Out.ofRes h (img.get [p.2.2, srcCoord W w p.1, srcCoord Hh hh p.2.1] h)).bind fun p1 h =>
      (Out.ofRes h (img.get [p.2.2, srcCoord W w p.1 + 1, srcCoord Hh hh p.2.1] h)).bind fun p2 h =>
      (Out.ofRes h (img.get [p.2.2, srcCoord W w p.1, srcCoord Hh hh p.2.1 + 1] h)).bind fun p3 h =>
      (Out.ofRes h (img.get [p.2.2, srcCoord W w p.1 + 1, srcCoord Hh hh p.2.1 + 1] h)).bind fun p4 h =>
        Img.ignoreErr (m.set (Img.blend (frac W w p.1) (frac Hh hh p.2.1) p1 p2 p3 p4) [p.2.2, p.1, p.2.1] h))
    (fun d x y => Img.blend (frac W w x) (frac Hh hh y) (t.get [d, srcCoord W w x, srcCoord Hh hh y])
      (t.get [d, srcCoord W w x + 1, srcCoord Hh hh y]) (t.get [d, srcCoord W w x, srcCoord Hh hh y + 1])
      (t.get [d, srcCoord W w x + 1, srcCoord Hh hh y + 1])) ?_
  · obtain ⟨h2, e2, F1, F2, F3⟩ := K
    refine ⟨m, h2, ?_, F1, ?_, N.fresh, N.nodup⟩
    · unfold Img.smoothScale
      rw [hsh]
      simp only [e1, Out.bind_ok]
      rw [imgEach_triples]
      exact congrArg (Out.map _) e2
    · refine ⟨by rw [F2]; exact N.frame.next, fun q hq => ?_⟩
      rw [F3 q (fun hm => by have := N.fresh q hm; omega), N.frame.val q hq]
  · rintro ⟨x, y, k⟩ hp h3 H3
    obtain ⟨b1, b2, b3⟩ := mem_triples.1 hp
    have c1 := srcCoord_inside b1 hw bW
    have c2 := srcCoord_inside b2 hhh bH
    simp only
    rw [H3.get _ (by rw [hs]; exact inRange3.2 ⟨b3, by omega, by omega⟩)]
    simp only [Out.ofRes_ok, Out.bind_ok]
    rw [H3.get _ (by rw [hs]; exact inRange3.2 ⟨b3, by omega, by omega⟩)]
    simp only [Out.ofRes_ok, Out.bind_ok]
    rw [H3.get _ (by rw [hs]; exact inRange3.2 ⟨b3, by omega, by omega⟩)]
    simp only [Out.ofRes_ok, Out.bind_ok]
    rw [H3.get _ (by rw [hs]; exact inRange3.2 ⟨b3, by omega, by omega⟩)]
    simp only [Out.ofRes_ok, Out.bind_ok]

/-- bilinear interpolation between four corners, at `dx`, `dy` from the first -/
def bilinear (dx dy p1 p2 p3 p4 : ℚ) : ℚ :=
  (1 - dx) * (1 - dy) * p1 + dx * (1 - dy) * p2 + (1 - dx) * dy * p3 + dx * dy * p4

theorem blend_near {dx dy ex ey : ℚ} (hx : Near 1 dx ex 1) (hy : Near 1 dy ey 1) (x0 : 0 ≤ ex) (y0 : 0 ≤ ey) (p1 p2 p3 p4 : T) :
    ∃ v : ℚ, Img.blend dx dy p1 p2 p3 p4 = Conv.ofF v ∧
      |v - bilinear ex ey (Conv.toF p1) (Conv.toF p2) (Conv.toF p3) (Conv.toF p4)| ≤
        (|Conv.toF p1| + |Conv.toF p2| + |Conv.toF p3| + |Conv.toF p4|) / 2 ^ 49 := by
  refine ⟨_, rfl, ?_⟩
  have ha := (hx.one_sub x0).fl
  have hb := (hy.one_sub y0).fl
  have q : ∀ p : T, Near 0 (Conv.toF p) (Conv.toF p) |Conv.toF p| := fun p => Near.exact _ (le_refl _)
  have t1 := (((ha.mul hb).fl).mul (q p1)).fl
  have t2 := ((((hx.mul hb).fl).mul (q p2)).fl).mono (show _ ≤ 6 by omega)
  have t3 := ((((ha.mul hy).fl).mul (q p3)).fl).mono (show _ ≤ 7 by omega)
  have t4 := ((((hx.mul hy).fl).mul (q p4)).fl).mono (show _ ≤ 8 by omega)
  have K := (((((((t1.add t2).fl).add t3).fl).add t4).fl).2)
  unfold bilinear
  refine le_trans K ?_
  simp only [one_mul]
  rw [mul_comm, div_eq_mul_inv]
  have hc : (1 + 1 / 2 ^ 53 : ℚ) ^ 9 - 1 ≤ (2 ^ 49)⁻¹ := by norm_num
  exact mul_le_mul_of_nonneg_left hc (by positivity)

theorem srcPos {s t x : Nat} (hs : s ≤ 2 ^ 53) (ht : t ≤ 2 ^ 53) (hx : x < t) (hlt : srcCoord s t x < s) :
    ∃ v : ℚ, srcCoord s t x = ⌊v⌋.toNat ∧ 0 ≤ v ∧ |v - (x : ℚ) * s / t| ≤ (x : ℚ) * s / t / 2 ^ 51 ∧
      Near 1 (frac s t x) (v - ⌊v⌋) 1 := by
  have htp : (0 : ℚ) < t := by exact_mod_cast (by omega : 0 < t)
  have e1 : fl64 (s : ℚ) = s := fl64_nat hs
  have e2 : fl64 (t : ℚ) = t := fl64_nat ht
  have e3 : fl64 (x : ℚ) = x := fl64_nat (by omega)
  have hq : (0 : ℚ) ≤ s / t := by positivity
  have hx0 : (0 : ℚ) ≤ x := by positivity
  have n1 : 0 ≤ fl64 ((s : ℚ) / t) := fl64_nonneg hq
  have hq2 : (0 : ℚ) ≤ x * fl64 ((s : ℚ) / t) := mul_nonneg hx0 n1
  have n2 := fl64_nonneg hq2
  have ev : srcCoord s t x = ⌊fl64 (x * fl64 ((s : ℚ) / t))⌋.toNat := by unfold srcCoord truncNat; rw [e1, e2, e3]
  refine ⟨fl64 (x * fl64 ((s : ℚ) / t)), ev, n2, ?_, ?_⟩
  · have k1 := ((Near.exact (x : ℚ) (le_refl _)).mul ((Near.exact ((s : ℚ) / t) (le_refl _)).fl)).fl.2
    rw [← mul_div_assoc] at k1
    refine le_trans k1 ?_
    rw [abs_of_nonneg hx0, abs_of_nonneg hq, ← mul_div_assoc, mul_comm, div_eq_mul_inv _ ((2 : ℚ) ^ 51)]
    refine mul_le_mul_of_nonneg_left ?_ (by positivity)
    norm_num
  · have f0 : 0 ≤ ⌊fl64 (x * fl64 ((s : ℚ) / t))⌋ := Int.floor_nonneg.2 n2
    have e5 : fl64 (srcCoord s t x : ℚ) = srcCoord s t x := fl64_nat (by omega)
    have e4 : ((srcCoord s t x : ℕ) : ℚ) = ⌊fl64 (x * fl64 ((s : ℚ) / t))⌋ := by
      rw [ev]; exact_mod_cast Int.toNat_of_nonneg f0
    unfold frac
    rw [e5, e4, e1, e2, e3]
    refine (Near.exact _ ?_).fl
    have h1 := Int.floor_le (fl64 (x * fl64 ((s : ℚ) / t)))
    have h2 := Int.lt_floor_add_one (fl64 (x * fl64 ((s : ℚ) / t)))
    rw [abs_le]; constructor <;> linarith

/-- `SmoothScale` to a strictly smaller size in both directions succeeds.  The result always has four
channels; those of the image are interpolated from four neighbouring source pixels, the others are 0.
The position `(P, Q)` in the source is the exact one up to a relative error of 2^-51, and the
interpolation is the exact one up to 2^-49 of the sum of the four pixels.
(Missing: it does not succeed for other sizes, see the next theorem.) -/
theorem C57_smoothScale_partial (img : Mat) (t : STensor T) (h : Heap T) (H : Holds h img t) (hpos : 0 < h.next)
    (D W Hh : Nat) (hs : t.shape = [D, W, Hh]) (w hh : Nat) (hw : w < W) (hhh : hh < Hh)
    (bW : w * W ≤ 2 ^ 51) (bH : hh * Hh ≤ 2 ^ 51) (bW' : W ≤ 2 ^ 53) (bH' : Hh ≤ 2 ^ 53) :
    ∃ r h', ∃ out : STensor T, Img.smoothScale img w hh h = .ok r h' ∧ NewTensor h h' r out ∧ out.shape = [4, w, hh] ∧
      ∀ d x y, d < 4 → x < w → y < hh →
        (d < D → ∃ P Q v : ℚ, ∃ X Y : Nat, |P - (x : ℚ) * W / w| ≤ (x : ℚ) * W / w / 2 ^ 51 ∧
          |Q - (y : ℚ) * Hh / hh| ≤ (y : ℚ) * Hh / hh / 2 ^ 51 ∧ X = ⌊P⌋.toNat ∧ Y = ⌊Q⌋.toNat ∧ X + 1 < W ∧ Y + 1 < Hh ∧
          out.get [d, x, y] = Conv.ofF v ∧
          |v - bilinear (P - ⌊P⌋) (Q - ⌊Q⌋) (Conv.toF (t.get [d, X, Y])) (Conv.toF (t.get [d, X + 1, Y]))
              (Conv.toF (t.get [d, X, Y + 1])) (Conv.toF (t.get [d, X + 1, Y + 1]))| ≤
            (|Conv.toF (t.get [d, X, Y])| + |Conv.toF (t.get [d, X + 1, Y])| + |Conv.toF (t.get [d, X, Y + 1])| +
              |Conv.toF (t.get [d, X + 1, Y + 1])|) / 2 ^ 49) ∧
        (D ≤ d → out.get [d, x, y] = zero) := by
  obtain ⟨r, h', e, N⟩ := smoothScale_blend img t h H hpos D W Hh hs w hh hw hhh bW bH
  refine ⟨r, h', _, e, N, rfl, fun d x y hd hx hy => ⟨fun hD => ?_, fun hD => ?_⟩⟩
  · have c1 := srcCoord_inside hx hw bW
    have c2 := srcCoord_inside hy hhh bH
    obtain ⟨P, p1, p2, p3, p4⟩ := srcPos (s := W) (t := w) bW' (by omega) hx (by omega)
    obtain ⟨Q, q1, q2, q3, q4⟩ := srcPos (s := Hh) (t := hh) bH' (by omega) hy (by omega)
    obtain ⟨v, v1, v2⟩ := blend_near p4 q4 (by linarith [Int.floor_le P]) (by linarith [Int.floor_le Q])
      (t.get [d, srcCoord W w x, srcCoord Hh hh y]) (t.get [d, srcCoord W w x + 1, srcCoord Hh hh y])
      (t.get [d, srcCoord W w x, srcCoord Hh hh y + 1]) (t.get [d, srcCoord W w x + 1, srcCoord Hh hh y + 1])
    refine ⟨P, Q, v, _, _, p3, q3, p1, q1, c1, c2, ?_, v2⟩
    simp only [List.getD_cons_zero, List.getD_cons_succ]
    rw [if_pos hD]
    exact v1
  · simp only [List.getD_cons_zero]
    rw [if_neg (by omega)]

/-- The full statement fails everywhere else: scaling any non-empty image to a size that is not strictly
smaller in both directions returns an error. -/
theorem C57_smoothScale_fails (img : Mat) (t : STensor T) (h : Heap T) (H : Holds h img t) (hpos : 0 < h.next)
    (D W Hh : Nat) (hs : t.shape = [D, W, Hh]) (hD : 0 < D) (hW : 0 < W) (hH : 0 < Hh) (w hh : Nat)
    (hw : 0 < w) (hhp : 0 < hh) (hbig : W ≤ w ∨ Hh ≤ hh) (bW : w * W ≤ 2 ^ 51) (bH : hh * Hh ≤ 2 ^ 51) :
    ∃ e h', Img.smoothScale img w hh h = .err e h' := by
  have hsh : img.shape = [D, W, Hh] := by rw [H.shape, hs]
  obtain ⟨m, h1, e1, N⟩ := C05_newZeros (T := T) [4, w, hh] h hpos
  have hdis : ∀ q ∈ img.ops, q ∉ m.ops := fun q h1 h2 => by
    have := (H.valid q h1).2; have := N.fresh q h2; omega
  unfold Img.smoothScale
  rw [hsh]
  simp only [e1, Out.bind_ok]
  rw [imgEach_triples]
  have get_cases : ∀ (h1 : Heap T), Holds h1 img t → ∀ a b c, (∃ v, img.get [a, b, c] h1 = .ok v) ∨ ∃ e, img.get [a, b, c] h1 = .err e := by
    intro h1 H1 a b c
    by_cases hr : InRange t.shape [a, b, c]
    · exact Or.inl ⟨_, H1.get _ hr⟩
    · exact Or.inr (get_error H1 (by rw [hs]; rfl) hr)
  have bad : ∀ (h1 : Heap T), Holds h1 img t → ∀ a b c, (W ≤ b ∨ Hh ≤ c) → ∃ e, img.get [a, b, c] h1 = .err e := by
    intro h1 H1 a b c hbc
    refine get_error H1 (by rw [hs]; rfl) (fun hr => ?_)
    rw [hs] at hr
    have := inRange3.1 hr; omega
  have K := imgEach_err (fun h1 => Holds h1 img t ∧ ∃ u : STensor T, u.shape = [4, w, hh] ∧ Holds h1 m u)
    (triples w hh D)
    (f := fun p h =>
      (Out.ofRes h (img.get [p.2.2, srcCoord W w p.1, srcCoord Hh hh p.2.1] h)).bind fun p1 h =>
      (Out.ofRes h (img.get [p.2.2, srcCoord W w p.1 + 1, srcCoord Hh hh p.2.1] h)).bind fun p2 h =>
      (Out.ofRes h (img.get [p.2.2, srcCoord W w p.1, srcCoord Hh hh p.2.1 + 1] h)).bind fun p3 h =>
      (Out.ofRes h (img.get [p.2.2, srcCoord W w p.1 + 1, srcCoord Hh hh p.2.1 + 1] h)).bind fun p4 h =>
        Img.ignoreErr (m.set (Img.blend (frac W w p.1) (frac Hh hh p.2.1) p1 p2 p3 p4) [p.2.2, p.1, p.2.1] h))
    ?_ (i := (w - 1, hh - 1, 0)) (mem_triples.2 ⟨by omega, by omega, hD⟩) ?_ (h := h1)
    ⟨H.extends N.frame, _, rfl, N.holds⟩
  · obtain ⟨e, h', he⟩ := K
    exact ⟨e, h', congrArg (Out.map _) he⟩
  · rintro ⟨x, y, k⟩ hp h3 ⟨H3, u, us, U3⟩
    simp only
    rcases get_cases h3 H3 k (srcCoord W w x) (srcCoord Hh hh y) with ⟨v1, g1⟩ | ⟨e, g1⟩
    · rcases get_cases h3 H3 k (srcCoord W w x + 1) (srcCoord Hh hh y) with ⟨v2, g2⟩ | ⟨e, g2⟩
      · rcases get_cases h3 H3 k (srcCoord W w x) (srcCoord Hh hh y + 1) with ⟨v3, g3⟩ | ⟨e, g3⟩
        · rcases get_cases h3 H3 k (srcCoord W w x + 1) (srcCoord Hh hh y + 1) with ⟨v4, g4⟩ | ⟨e, g4⟩
          · left
            rw [g1]; simp only [Out.ofRes_ok, Out.bind_ok]
            rw [g2]; simp only [Out.ofRes_ok, Out.bind_ok]
            rw [g3]; simp only [Out.ofRes_ok, Out.bind_ok]
            rw [g4]; simp only [Out.ofRes_ok, Out.bind_ok]
            obtain ⟨h4, e4, U4, n4, f4⟩ := ignored_set U3 N.nodup
              (Img.blend (frac W w x) (frac Hh hh y) v1 v2 v3 v4) (idx := [k, x, y]) (by rw [us]; rfl)
            refine ⟨h4, e4, ⟨H3.shape, H3.mul, H3.len, fun q hq => ⟨(H3.valid q hq).1, by rw [n4]; exact (H3.valid q hq).2⟩,
              fun i hi => ?_⟩, ⟨u.shape, fun i => if i = [k, x, y] then Img.blend (frac W w x) (frac Hh hh y) v1 v2 v3 v4 else u.get i⟩, us, U4⟩
            rw [← H3.get i hi]
            unfold Mat.get
            cases ho : img.getOperand i with
            | ok q =>
              simp only [Res.bind_ok, Heap.load]
              rw [f4 q (hdis q (getOperand_mem ho))]
            | err e => rfl
            | panic => rfl
          · right; rw [g1]; simp only [Out.ofRes_ok, Out.bind_ok]
            rw [g2]; simp only [Out.ofRes_ok, Out.bind_ok]
            rw [g3]; simp only [Out.ofRes_ok, Out.bind_ok]
            rw [g4]; exact ⟨e, h3, rfl⟩
        · right; rw [g1]; simp only [Out.ofRes_ok, Out.bind_ok]
          rw [g2]; simp only [Out.ofRes_ok, Out.bind_ok]
          rw [g3]; exact ⟨e, h3, rfl⟩
      · right; rw [g1]; simp only [Out.ofRes_ok, Out.bind_ok]
        rw [g2]; exact ⟨e, h3, rfl⟩
    · right; rw [g1]; exact ⟨e, h3, rfl⟩
  · rintro h3 ⟨H3, u, us, U3⟩
    simp only
    rcases get_cases h3 H3 0 (srcCoord W w (w - 1)) (srcCoord Hh hh (hh - 1)) with ⟨v1, g1⟩ | ⟨e, g1⟩
    · rw [g1]; simp only [Out.ofRes_ok, Out.bind_ok]
      rcases get_cases h3 H3 0 (srcCoord W w (w - 1) + 1) (srcCoord Hh hh (hh - 1)) with ⟨v2, g2⟩ | ⟨e, g2⟩
      · rw [g2]; simp only [Out.ofRes_ok, Out.bind_ok]
        have : ∃ e, img.get [0, srcCoord W w (w - 1), srcCoord Hh hh (hh - 1) + 1] h3 = .err e := by
          rcases hbig with hb | hb
          · exfalso
            obtain ⟨e, he⟩ := bad h3 H3 0 (srcCoord W w (w - 1) + 1) (srcCoord Hh hh (hh - 1))
              (Or.inl (by have := srcCoord_last hW hb bW; omega))
            rw [he] at g2; cases g2
          · exact bad h3 H3 _ _ _ (Or.inr (by have := srcCoord_last hH hb bH; omega))
        obtain ⟨e, g3⟩ := this
        rw [g3]; exact ⟨e, h3, rfl⟩
      · rw [g2]; exact ⟨e, h3, rfl⟩
    · rw [g1]; exact ⟨e, h3, rfl⟩

/-- the hypotheses of both theorems are met by a 3-channel 4x5 picture, scaled to 2x2 and to 4x5 -/
example : ∃ (img : Mat) (t : STensor ℤ) (h : Heap ℤ), Holds h img t ∧ 0 < h.next ∧ t.shape = [3, 4, 5] ∧
    2 < 4 ∧ 2 < 5 ∧ 4 * 4 ≤ 2 ^ 51 ∧ 5 * 5 ≤ 2 ^ 51 ∧ 5 ≤ 2 ^ 53 := by
  obtain ⟨m, h1, e1, N⟩ := C05_newFromValues (List.range 60 |>.map Int.ofNat) [3, 4, 5]
    (⟨fun _ => (0 : ℤ), 1⟩ : Heap ℤ) (by norm_num)
  exact ⟨m, _, h1, N.holds, lt_of_lt_of_le (by norm_num) N.frame.next, rfl, by norm_num, by norm_num, by norm_num, by norm_num, by norm_num⟩

end Godeep.Props
