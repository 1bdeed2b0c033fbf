import Verif.Model.Picture
import Verif.Props.Img
/-
  C62, C63, C64, C65: images and tensors.
-/
set_option linter.unusedSectionVars false

namespace Godeep.Spec

/-- channel `c` of the pixel in column `x` and row `y`, counted from the corner of the image -/
def _root_.Godeep.Picture.pixel (p : Picture) (x y c : Nat) : Nat := p.rgba (p.minX + x) (p.minY + y) c

/-- the element for a channel value: the `float64` nearest to `n / 65535`, converted to the element type -/
def level {T : Type} [Conv T] (n : Nat) : T := Conv.ofF (fl64 (n / 65535))

/-- same size and same pixels -/
def _root_.Godeep.Rgba.Same (a b : Rgba) : Prop :=
  a.width = b.width ∧ a.height = b.height ∧ ∀ x < a.width, ∀ y < a.height, ∀ c < 4, a.pix x y c = b.pix x y c

/-- all channels are bytes -/
def _root_.Godeep.Rgba.Bytes (a : Rgba) : Prop := ∀ x y c, a.pix x y c < 256

end Godeep.Spec

namespace Godeep.Props
open Godeep Spec GoNum

variable {T : Type} [GoNum T]

section load
variable [Conv T]

/-- the loops shared by the three loading functions -/
theorem load_pixels (w hh : Nat) (g : Nat → Nat → Nat → Nat) (hb : ∀ x y c, x < w → y < hh → g x y c ≤ 2 ^ 53) (h : Heap T) (hpos : 0 < h.next) :
    ∃ r h', ((Mat.newZeros [4, w, hh] h).bind fun t h =>
        (Img.each (List.range w) (fun i => Img.each (List.range hh) fun j => Img.setPixel t (g i j) i j) h).map fun _ => t) = .ok r h' ∧
      NewTensor h h' r ⟨[4, w, hh], fun i => level (g (i.getD 1 0) (i.getD 2 0) (i.getD 0 0))⟩ := by
  obtain ⟨m, h1, e1, N⟩ := C05_newZeros (T := T) [4, w, hh] h hpos
  have S : Holds h1 ⟨[0], indexMul [0], []⟩ (⟨[0], fun _ => zero⟩ : STensor T) := by
    refine ⟨rfl, rfl, rfl, by simp, fun i hi => ?_⟩
    rcases i with _ | ⟨a, i⟩ <;> simp [InRange] at hi
  have K := fill_pixels (D := 4) N.holds N.nodup S (by simp)
    (fun p h => Img.ignoreErr (m.set (Conv.ofF (fl64 (fl64 (g p.1 p.2.1 p.2.2 : Nat) / 65535))) [p.2.2, p.1, p.2.1] h))
    (fun k x y => level (g x y k)) (fun p hp h1 _ => by
      obtain ⟨b1, b2, _⟩ := mem_triples.1 hp
      simp only [level]
      rw [fl64_nat (hb p.1 p.2.1 p.2.2 b1 b2)])
  obtain ⟨h2, e2, F1, F2, F3⟩ := K
  refine ⟨m, h2, ?_, ?_, ?_, N.fresh, N.nodup⟩
  · simp only [e1, Out.bind_ok]
    show Out.map _ (Img.each (List.range w) (fun i => Img.each (List.range hh) fun j => Img.each (List.range 4) fun k h => _) h1) = _
    rw [imgEach_triples w hh 4 fun i j k h => Img.ignoreErr (m.set (Conv.ofF (fl64 (fl64 (g i j k : Nat) / 65535))) [k, i, j] h)]
    rw [e2]; rfl
  · refine ⟨F1.shape, F1.mul, F1.len, F1.valid, fun i hi => ?_⟩
    rw [F1.get i hi]
    obtain ⟨k, x, y, rfl, b1, b2, b3⟩ := inRange_three hi
    simp only [List.getD_cons_zero, List.getD_cons_succ, b1, if_true]
  · refine ⟨by rw [F2]; exact N.frame.next, fun q hq => ?_⟩
    rw [F3 q (fun hm => by have := N.fresh q hm; omega), N.frame.val q hq]

/-- C62, as far as it holds: `LoadImage` of a decoded image whose bounds start at (0, 0) gives a new tensor of shape
[4, width, height]; the element at (c, x, y) is channel c of the pixel in column x and row y, divided by 65535.
Missing: images with other bounds, see `C62_bounds_ignored`. -/
theorem C62_load_image_partial (p : Picture) (h0 : p.minX = 0 ∧ p.minY = 0) (hb : ∀ x y c, p.rgba x y c ≤ 65535) (h : Heap T) (hpos : 0 < h.next) :
    ∃ r h', Img.loadImage p h = .ok r h' ∧
      NewTensor h h' r ⟨[4, p.width, p.height], fun i => level (p.pixel (i.getD 1 0) (i.getD 2 0) (i.getD 0 0))⟩ := by
  obtain ⟨r, h', e, N⟩ := load_pixels p.width p.height (fun x y => p.rgba x y) (fun x y c _ _ => le_trans (hb x y c) (by norm_num)) h hpos
  refine ⟨r, h', e, ?_⟩
  simpa only [Picture.pixel, h0.1, h0.2, zero_add] using N

/-- what `LoadImage` does for every image: it asks for the colours at (0, 0) to (width - 1, height - 1), wherever the bounds are -/
theorem C62_load_image_reads (p : Picture) (hb : ∀ x y c, p.rgba x y c ≤ 65535) (h : Heap T) (hpos : 0 < h.next) :
    ∃ r h', Img.loadImage p h = .ok r h' ∧
      NewTensor h h' r ⟨[4, p.width, p.height], fun i => level (p.rgba (i.getD 1 0 : Nat) (i.getD 2 0 : Nat) (i.getD 0 0))⟩ :=
  load_pixels p.width p.height (fun x y => p.rgba x y) (fun x y c _ _ => le_trans (hb x y c) (by norm_num)) h hpos

end load

/-! ### element types -/

/-- rounding to 24 significant bits, ties to even (as `fl64`) -/
def fl32 (q : ℚ) : ℚ :=
  if q = 0 then 0
  else halfEven (q / 2 ^ (Int.log 2 |q| - 23)) * 2 ^ (Int.log 2 |q| - 23)

/-- finite `float64` numbers, with the arithmetic of `Model/Float64.lean` -/
structure F64 where
  val : ℚ

/-- finite `float32` numbers -/
structure F32 where
  val : ℚ

instance : GoNum F64 where
  zero := ⟨0⟩
  one := ⟨1⟩
  add a b := ⟨fl64 (a.val + b.val)⟩
  sub a b := ⟨fl64 (a.val - b.val)⟩
  mul a b := ⟨fl64 (a.val * b.val)⟩
  div a b := ⟨fl64 (a.val / b.val)⟩
  neg a := ⟨-a.val⟩
  divPanics _ _ := false
  lt a b := decide (a.val < b.val)
  eq a b := decide (a.val = b.val)
  ofNat n := ⟨fl64 n⟩

instance : GoNum F32 where
  zero := ⟨0⟩
  one := ⟨1⟩
  add a b := ⟨fl32 (a.val + b.val)⟩
  sub a b := ⟨fl32 (a.val - b.val)⟩
  mul a b := ⟨fl32 (a.val * b.val)⟩
  div a b := ⟨fl32 (a.val / b.val)⟩
  neg a := ⟨-a.val⟩
  divPanics _ _ := false
  lt a b := decide (a.val < b.val)
  eq a b := decide (a.val = b.val)
  ofNat n := ⟨fl32 n⟩

instance : Conv F64 := ⟨F64.val, fun q => ⟨q⟩⟩
instance : Conv F32 := ⟨F32.val, fun q => ⟨fl32 q⟩⟩
instance : Conv ℤ := ⟨fun n => fl64 n, truncInt⟩

instance : Pix F64 := ⟨⟨255⟩, fun x => truncNat x.val⟩
instance : Pix F32 := ⟨⟨255⟩, fun x => truncNat x.val⟩
instance : Pix ℤ := ⟨255, fun x => (x % 256).toNat⟩

theorem byte64 : ∀ v < 256, Pix.toByte (mul (level (v * 257) : F64) Pix.c255) = v := by decide +kernel

theorem byte32 : ∀ v < 256, Pix.toByte (mul (level (v * 257) : F32) Pix.c255) = v := by decide +kernel

/-! ### `ToImg` -/

section toImg
variable [Pix T]

theorem toImgLoop_ok {h : Heap T} {img : Mat} {t : STensor T} (H : Holds h img t) {D w hh : Nat} (hs : t.shape = [D, w, hh]) (hD : 4 ≤ D) :
    ∀ (l : List (Nat × Nat)) (acc : Nat → Nat → Nat → Nat), (∀ q ∈ l, q.1 < w ∧ q.2 < hh) →
      ∃ pix, Img.toImgLoop img h l acc = .ok pix ∧ ∀ x y c, c < 4 → pix x y c =
        if (x, y) ∈ l then Pix.toByte (mul (t.get [c, x, y]) (Pix.c255 : T)) else acc x y c := by
  intro l
  induction l with
  | nil => exact fun acc _ => ⟨acc, rfl, by simp⟩
  | cons q l ih =>
    obtain ⟨i, j⟩ := q
    intro acc hl
    obtain ⟨hi, hj⟩ := hl (i, j) (by simp)
    have g : ∀ c, c < 4 → img.get [c, i, j] h = .ok (t.get [c, i, j]) := fun c hc =>
      H.get _ (by rw [hs]; exact inRange3.2 ⟨by omega, hi, hj⟩)
    obtain ⟨pix, e, P⟩ := ih (fun x y k => if x = i ∧ y = j then
      ([t.get [0, i, j], t.get [1, i, j], t.get [2, i, j], t.get [3, i, j]].map fun x => Pix.toByte (mul x (Pix.c255 : T))).getD k 0 else acc x y k)
      (fun q hq => hl q (by simp [hq]))
    refine ⟨pix, ?_, fun x y c hc => ?_⟩
    · unfold Img.toImgLoop Img.pixelOf
      rw [g 0 (by omega), g 1 (by omega), g 2 (by omega), g 3 (by omega)]
      exact e
    · rw [P x y c hc]
      by_cases h1 : (x, y) ∈ l
      · simp [h1]
      · by_cases h2 : x = i ∧ y = j
        · obtain ⟨rfl, rfl⟩ := h2
          simp only [h1, if_false, List.mem_cons, true_or, if_true, and_self]
          obtain rfl | rfl | rfl | rfl : c = 0 ∨ c = 1 ∨ c = 2 ∨ c = 3 := by omega
          all_goals rfl
        · simp only [h1, if_false, h2, List.mem_cons, Prod.mk.injEq, or_self]

/-- C64: For a tensor with three dimensions, of at least 4 channels, `ToImg` gives an image of the size of the last two
dimensions, whose pixel (x, y) has the bytes `uint8(v * 255)` of the elements at (0, x, y) to (3, x, y). -/
theorem C64_toImg (img : Mat) (t : STensor T) (h : Heap T) (H : Holds h img t) {D w hh : Nat} (hs : t.shape = [D, w, hh]) (hD : 4 ≤ D) :
    ∃ r, Img.toImg img h = .ok r ∧ r.Same ⟨w, hh, fun x y c => Pix.toByte (mul (t.get [c, x, y]) (Pix.c255 : T))⟩ := by
  obtain ⟨pix, e, P⟩ := toImgLoop_ok H hs hD ((List.range w).flatMap fun i => (List.range hh).map fun j => (i, j)) (fun _ _ _ => 0) (by
    rintro ⟨x, y⟩ hq
    simpa using hq)
  refine ⟨⟨w, hh, pix⟩, ?_, rfl, rfl, fun x hx y hy c hc => ?_⟩
  · unfold Img.toImg
    rw [H.shape, hs]
    show Res.bind (Img.toImgLoop img h _ _) _ = _
    rw [e]; rfl
  · show pix x y c = _
    rw [P x y c hc, if_pos]
    simp only [List.mem_flatMap, List.mem_range, List.mem_map, Prod.mk.injEq]
    exact ⟨x, hx, y, hy, rfl, rfl⟩

/-- C64: `ToImg` never aborts; it reports an error exactly for tensors that do not have three dimensions, and for those
that have pixels but fewer than four channels. -/
theorem C64_toImg_accepts (img : Mat) (t : STensor T) (h : Heap T) (H : Holds h img t) :
    (∃ r, Img.toImg img h = .ok r) ∧ (∃ D w hh, t.shape = [D, w, hh] ∧ (4 ≤ D ∨ w = 0 ∨ hh = 0)) ∨
    (∃ e, Img.toImg img h = .err e) ∧ ¬ ∃ D w hh, t.shape = [D, w, hh] ∧ (4 ≤ D ∨ w = 0 ∨ hh = 0) := by
  by_cases hr : ∃ D w hh, t.shape = [D, w, hh]
  · obtain ⟨D, w, hh, hs⟩ := hr
    by_cases hD : 4 ≤ D
    · obtain ⟨r, e, _⟩ := C64_toImg img t h H hs hD
      exact Or.inl ⟨⟨r, e⟩, D, w, hh, hs, Or.inl hD⟩
    · by_cases he : w = 0 ∨ hh = 0
      · refine Or.inl ⟨?_, D, w, hh, hs, Or.inr he⟩
        unfold Img.toImg
        rw [H.shape, hs]
        have : ((List.range w).flatMap fun i => (List.range hh).map fun j => (i, j)) = [] := by
          rcases he with rfl | rfl <;> simp
        simp only [this]
        exact ⟨_, rfl⟩
      · refine Or.inr ⟨?_, ?_⟩
        · unfold Img.toImg
          rw [H.shape, hs]
          obtain ⟨w, rfl⟩ : ∃ w', w = w' + 1 := ⟨w - 1, by omega⟩
          obtain ⟨hh, rfl⟩ : ∃ h', hh = h' + 1 := ⟨hh - 1, by omega⟩
          simp only [List.range_succ_eq_map, List.flatMap_cons, List.map_cons, List.cons_append, Img.toImgLoop, Img.pixelOf]
          have g : ∀ c, c < D → img.get [c, 0, 0] h = .ok (t.get [c, 0, 0]) := fun c hc =>
            H.get _ (by rw [hs]; exact inRange3.2 ⟨hc, by omega, by omega⟩)
          have b : ∀ c, D ≤ c → ∃ e, img.get [c, 0, 0] h = .err e := fun c hc =>
            get_error H (by rw [hs]; rfl) (by rw [hs, inRange3]; omega)
          obtain rfl | rfl | rfl | rfl : D = 0 ∨ D = 1 ∨ D = 2 ∨ D = 3 := by omega
          · obtain ⟨e, he⟩ := b 0 (by omega)
            exact ⟨e, by rw [he]; rfl⟩
          · obtain ⟨e, he⟩ := b 1 (by omega)
            exact ⟨e, by rw [g 0 (by omega), he]; rfl⟩
          · obtain ⟨e, he⟩ := b 2 (by omega)
            exact ⟨e, by rw [g 0 (by omega), g 1 (by omega), he]; rfl⟩
          · obtain ⟨e, he⟩ := b 3 (by omega)
            exact ⟨e, by rw [g 0 (by omega), g 1 (by omega), g 2 (by omega), he]; rfl⟩
        · rintro ⟨D', w', h', hs', hc⟩
          rw [hs] at hs'
          simp only [List.cons.injEq, and_true] at hs'
          omega
  · refine Or.inr ⟨?_, fun ⟨D, w, hh, hs, _⟩ => hr ⟨D, w, hh, hs⟩⟩
    unfold Img.toImg
    rw [H.shape]
    split
    · next D w hh hs => exact absurd ⟨D, w, hh, hs⟩ hr
    · exact ⟨_, rfl⟩

/-- C63 for any element type in which the 256 levels of a byte survive -/
theorem round_trip [Conv T] (hT : ∀ v < 256, Pix.toByte (mul (level (v * 257) : T) Pix.c255) = v) (a : Rgba) (ha : a.Bytes) (h : Heap T) (hpos : 0 < h.next) :
    ∃ r h', Img.loadImage a.picture h = .ok r h' ∧ ∃ b, Img.toImg r h' = .ok b ∧ b.Same a := by
  obtain ⟨r, h', e, N⟩ := C62_load_image_partial (T := T) a.picture ⟨rfl, rfl⟩ (fun x y c => by
    show (if _ then _ else _) ≤ _
    split
    · have h1 : a.pix x.toNat y.toNat c < 256 := ha x.toNat y.toNat c
      show a.pix x.toNat y.toNat c * 257 ≤ 65535
      omega
    · omega) h hpos
  obtain ⟨b, e2, s1, s2, s3⟩ := C64_toImg r _ h' N.holds (D := 4) rfl (le_refl _)
  refine ⟨r, h', e, b, e2, s1, s2, fun x hx y hy c hc => ?_⟩
  rw [s3 x hx y hy c hc]
  rw [s1] at hx
  rw [s2] at hy
  have : a.picture.pixel x y c = a.pix x y c * 257 := by
    show (if _ then _ else _) = _
    rw [if_pos]
    · simp [Rgba.picture]
    · have hx : x < a.width := hx
      have hy : y < a.height := hy
      simp only [Rgba.picture, zero_add]
      omega
  show Pix.toByte (mul (level (a.picture.pixel x y c)) Pix.c255) = _
  rw [this]
  exact hT _ (ha x y c)

end toImg

/-- C63: an image of bytes, of any size, loaded into a tensor of `float64` and converted back is the same image -/
theorem C63_round_trip_float64 (a : Rgba) (ha : a.Bytes) (h : Heap F64) (hpos : 0 < h.next) :
    ∃ r h', Img.loadImage a.picture h = .ok r h' ∧ ∃ b, Img.toImg r h' = .ok b ∧ b.Same a := round_trip byte64 a ha h hpos

/-- C63: the same for `float32` -/
theorem C63_round_trip_float32 (a : Rgba) (ha : a.Bytes) (h : Heap F32) (hpos : 0 < h.next) :
    ∃ r h', Img.loadImage a.picture h = .ok r h' ∧ ∃ b, Img.toImg r h' = .ok b ∧ b.Same a := round_trip byte32 a ha h hpos

/-- C63 does not hold for integer element types: all levels below the highest become 0 -/
theorem C63_int_loses (a : Rgba) (h : Heap ℤ) (hpos : 0 < h.next) (hg : ∀ x y c, a.pix x y c < 255) :
    ∃ r h', Img.loadImage a.picture h = .ok r h' ∧ ∃ b, Img.toImg r h' = .ok b ∧ b.Same ⟨a.width, a.height, fun _ _ _ => 0⟩ := by
  obtain ⟨r, h', e, N⟩ := C62_load_image_partial (T := ℤ) a.picture ⟨rfl, rfl⟩ (fun x y c => by
    show (if _ then _ else _) ≤ _
    split
    · have h1 : a.pix x.toNat y.toNat c < 255 := hg x.toNat y.toNat c
      show a.pix x.toNat y.toNat c * 257 ≤ 65535
      omega
    · omega) h hpos
  obtain ⟨b, e2, s1, s2, s3⟩ := C64_toImg r _ h' N.holds (D := 4) rfl (le_refl _)
  refine ⟨r, h', e, b, e2, s1, s2, fun x hx y hy c hc => ?_⟩
  rw [s3 x hx y hy c hc]
  have h0 : ∀ v < 255, Pix.toByte (mul (level (v * 257) : ℤ) Pix.c255) = 0 := by decide +kernel
  have : ∃ v < 255, a.picture.pixel x y c = v * 257 := by
    unfold Picture.pixel Rgba.picture
    dsimp only
    split
    · exact ⟨_, hg _ _ _, rfl⟩
    · exact ⟨0, by omega, rfl⟩
  obtain ⟨v, hv, hp⟩ := this
  show Pix.toByte (mul (level (a.picture.pixel x y c)) Pix.c255) = _
  rw [hp]
  exact h0 v hv

/-- an image of one pixel, at (1, 0) -/
def cornerPicture : Picture := ⟨1, 0, 1, 1, fun x y _ => if x = 1 ∧ y = 0 then 65535 else 0⟩

/-- C62 is false for images whose bounds do not start at (0, 0): the white pixel of `cornerPicture` is lost -/
theorem C62_bounds_ignored (h : Heap F64) (hpos : 0 < h.next) :
    ∃ r h', Img.loadImage cornerPicture h = .ok r h' ∧ r.get [0, 0, 0] h' = .ok (⟨0⟩ : F64) ∧
      level (cornerPicture.pixel 0 0 0) = (⟨1⟩ : F64) := by
  obtain ⟨r, h', e, N⟩ := C62_load_image_reads (T := F64) cornerPicture (fun x y c => by
    unfold cornerPicture
    dsimp only
    split <;> omega) h hpos
  refine ⟨r, h', e, ?_, ?_⟩
  · rw [N.holds.get _ (inRange3.2 ⟨by decide, by decide, by decide⟩)]
    have : (level 0 : F64) = ⟨0⟩ := by
      show F64.mk (fl64 ((0 : Nat) / 65535)) = _
      rw [show fl64 (((0 : Nat) : ℚ) / 65535) = 0 by decide +kernel]
    exact congrArg Res.ok this
  · show F64.mk (fl64 ((65535 : Nat) / 65535)) = _
    rw [show fl64 (((65535 : Nat) : ℚ) / 65535) = 1 by decide +kernel]

/-! ### scaled loading -/

section scaled
variable [Conv T]

/-- C65: `LoadSimpleScaled` gives the tensor that `LoadImage` followed by `SimpleScale` gives.  (The image is not empty
and its bounds start at (0, 0).) -/
theorem C65_load_simple_scaled (p : Picture) (h0 : p.minX = 0 ∧ p.minY = 0) (hb : ∀ x y c, p.rgba x y c ≤ 65535)
    (hW : 0 < p.width) (hH : 0 < p.height) (bW : p.width ≤ 2 ^ 53) (bH : p.height ≤ 2 ^ 53)
    (w hh : Nat) (bw : w ≤ 2 ^ 52) (bh : hh ≤ 2 ^ 52) (h : Heap T) (hpos : 0 < h.next) :
    ∃ t r h', Img.loadSimpleScaled p w hh h = .ok r h' ∧ NewTensor h h' r t ∧
      ∃ i h1 r2 h2, Img.loadImage p h = .ok i h1 ∧ Img.simpleScale i w hh h1 = .ok r2 h2 ∧ NewTensor h1 h2 r2 t := by
  obtain ⟨r, h', e, N⟩ := load_pixels w hh (fun x y => p.rgba (srcCoord p.width w x : Nat) (srcCoord p.height hh y : Nat)) (fun x y c _ _ => le_trans (hb _ _ _) (by norm_num)) h hpos
  obtain ⟨i, h1, e1, N1⟩ := C62_load_image_partial p h0 hb h hpos
  obtain ⟨r2, h2, e2, N2⟩ := simpleScale_ok i _ h1 N1.holds (lt_of_lt_of_le hpos N1.frame.next) rfl hW hH bW bH w hh bw bh
  refine ⟨_, r, h', e, N, i, h1, r2, h2, e1, e2, ?_⟩
  have : (⟨[4, w, hh], fun i => level (p.rgba (srcCoord p.width w (i.getD 1 0) : Nat) (srcCoord p.height hh (i.getD 2 0) : Nat) (i.getD 0 0))⟩ : STensor T) =
      resampled ⟨[4, p.width, p.height], fun i => level (p.pixel (i.getD 1 0) (i.getD 2 0) (i.getD 0 0))⟩ 4 w hh (srcCoord p.width w) (srcCoord p.height hh) := by
    unfold resampled
    simp only [Picture.pixel, h0.1, h0.2, zero_add, List.getD_cons_zero, List.getD_cons_succ]
  rw [this]
  exact N2

theorem fl64_one : fl64 1 = 1 := by have := fl64_nat (n := 1) (by norm_num); simpa using this

theorem blend32_corner {p1 : Nat} (h : p1 ≤ 2 ^ 53) (p2 p3 p4 : Nat) : Img.blend32 0 0 p1 p2 p3 p4 = p1 := by
  unfold Img.blend32
  simp only [sub_zero, fl64_one, mul_one, one_mul, zero_mul, fl64_zero, add_zero, fl64_nat h]
  unfold truncNat
  simp

theorem blend32_same (dx dy : ℚ) {p1 p2 p3 p4 : Nat} (h1 : p1 ≤ 65535) (h2 : p2 ≤ 65535) (h3 : p3 ≤ 65535) (h4 : p4 ≤ 65535) :
    Img.blend32 dx dy p1 p2 p3 p4 = truncNat (Img.blend (T := F64) dx dy ⟨p1⟩ ⟨p2⟩ ⟨p3⟩ ⟨p4⟩).val := by
  unfold Img.blend32
  have e : ∀ {n : Nat}, n ≤ 65535 → fl64 (n : ℚ) = n := fun h => fl64_nat (le_trans h (by norm_num))
  rw [e h1, e h2, e h3, e h4]
  rfl

theorem bilinear_le {dx dy : ℚ} (hx : 0 ≤ dx ∧ dx ≤ 1) (hy : 0 ≤ dy ∧ dy ≤ 1) {p1 p2 p3 p4 : Nat}
    (h1 : p1 ≤ 65535) (h2 : p2 ≤ 65535) (h3 : p3 ≤ 65535) (h4 : p4 ≤ 65535) : bilinear dx dy p1 p2 p3 p4 ≤ 65535 := by
  have c : ∀ {n : Nat}, n ≤ 65535 → (n : ℚ) ≤ 65535 := fun h => by exact_mod_cast h
  have a0 : 0 ≤ 1 - dx := by linarith
  have b0 : 0 ≤ 1 - dy := by linarith
  have t1 := mul_le_mul_of_nonneg_left (c h1) (mul_nonneg a0 b0)
  have t2 := mul_le_mul_of_nonneg_left (c h2) (mul_nonneg hx.1 b0)
  have t3 := mul_le_mul_of_nonneg_left (c h3) (mul_nonneg a0 hy.1)
  have t4 := mul_le_mul_of_nonneg_left (c h4) (mul_nonneg hx.1 hy.1)
  unfold bilinear
  have : (1 - dx) * (1 - dy) * 65535 + dx * (1 - dy) * 65535 + (1 - dx) * dy * 65535 + dx * dy * 65535 = 65535 := by ring
  linarith

/-- C65: `LoadSmoothScaled` of an image that is not empty succeeds for every target size.  The element at (c, x, y) is
the level of an interpolation of four neighbouring colours, rounded down to an integer.  The position `(P, Q)` in the
source is the exact one up to a relative error of 2^-51 and lies in the image; the interpolation `v` is the exact one
up to 2^-49 of the sum of the four colours.  (The neighbours to the right and below may lie outside the image.) -/
theorem C65_load_smooth_scaled (p : Picture) (hb : ∀ x y c, p.rgba x y c ≤ 65535)
    (hW : 0 < p.width) (hH : 0 < p.height) (bW : p.width ≤ 2 ^ 53) (bH : p.height ≤ 2 ^ 53)
    (w hh : Nat) (bw : w ≤ 2 ^ 52) (bh : hh ≤ 2 ^ 52) (h : Heap T) (hpos : 0 < h.next) :
    ∃ r h', ∃ out : STensor T, Img.loadSmoothScaled p w hh h = .ok r h' ∧ NewTensor h h' r out ∧ out.shape = [4, w, hh] ∧
      ∀ c x y, x < w → y < hh → ∃ P Q v : ℚ, ∃ X Y : Nat,
        |P - (x : ℚ) * p.width / w| ≤ (x : ℚ) * p.width / w / 2 ^ 51 ∧ |Q - (y : ℚ) * p.height / hh| ≤ (y : ℚ) * p.height / hh / 2 ^ 51 ∧
        X = ⌊P⌋.toNat ∧ Y = ⌊Q⌋.toNat ∧ X < p.width ∧ Y < p.height ∧ out.get [c, x, y] = level ⌊v⌋.toNat ∧
        |v - bilinear (P - ⌊P⌋) (Q - ⌊Q⌋) (p.rgba X Y c) (p.rgba (X + 1 : Nat) Y c) (p.rgba X (Y + 1 : Nat) c) (p.rgba (X + 1 : Nat) (Y + 1 : Nat) c)| ≤
          ((p.rgba X Y c : ℚ) + p.rgba (X + 1 : Nat) Y c + p.rgba X (Y + 1 : Nat) c + p.rgba (X + 1 : Nat) (Y + 1 : Nat) c) / 2 ^ 49 := by
  have key : ∀ c x y, x < w → y < hh → ∃ P Q v : ℚ, ∃ X Y : Nat,
        |P - (x : ℚ) * p.width / w| ≤ (x : ℚ) * p.width / w / 2 ^ 51 ∧ |Q - (y : ℚ) * p.height / hh| ≤ (y : ℚ) * p.height / hh / 2 ^ 51 ∧
        X = ⌊P⌋.toNat ∧ Y = ⌊Q⌋.toNat ∧ X < p.width ∧ Y < p.height ∧ X = srcCoord p.width w x ∧ Y = srcCoord p.height hh y ∧
        Img.blend32 (frac p.width w x) (frac p.height hh y) (p.rgba X Y c) (p.rgba (X + 1 : Nat) Y c) (p.rgba X (Y + 1 : Nat) c) (p.rgba (X + 1 : Nat) (Y + 1 : Nat) c) = ⌊v⌋.toNat ∧
        ⌊v⌋.toNat ≤ 2 ^ 53 ∧
        |v - bilinear (P - ⌊P⌋) (Q - ⌊Q⌋) (p.rgba X Y c) (p.rgba (X + 1 : Nat) Y c) (p.rgba X (Y + 1 : Nat) c) (p.rgba (X + 1 : Nat) (Y + 1 : Nat) c)| ≤
          ((p.rgba X Y c : ℚ) + p.rgba (X + 1 : Nat) Y c + p.rgba X (Y + 1 : Nat) c + p.rgba (X + 1 : Nat) (Y + 1 : Nat) c) / 2 ^ 49 := by
    intro c x y hx hy
    have c1 := srcCoord_lt bW bw hx hW
    have c2 := srcCoord_lt bH bh hy hH
    obtain ⟨P, p1, p2, p3, p4⟩ := srcPos (s := p.width) (t := w) bW (le_trans bw (by norm_num)) hx c1
    obtain ⟨Q, q1, q2, q3, q4⟩ := srcPos (s := p.height) (t := hh) bH (le_trans bh (by norm_num)) hy c2
    obtain ⟨X, hX⟩ : ∃ X, X = srcCoord p.width w x := ⟨_, rfl⟩
    obtain ⟨Y, hY⟩ : ∃ Y, Y = srcCoord p.height hh y := ⟨_, rfl⟩
    obtain ⟨v, v1, v2⟩ := blend_near (T := F64) p4 q4 (by linarith [Int.floor_le P]) (by linarith [Int.floor_le Q])
      ⟨p.rgba X Y c⟩ ⟨p.rgba (X + 1 : Nat) Y c⟩ ⟨p.rgba X (Y + 1 : Nat) c⟩ ⟨p.rgba (X + 1 : Nat) (Y + 1 : Nat) c⟩
    have tf : ∀ n : Nat, |Conv.toF (F64.mk (n : ℚ))| = (n : ℚ) := fun n => abs_of_nonneg (Nat.cast_nonneg n)
    rw [tf, tf, tf, tf] at v2
    refine ⟨P, Q, v, X, Y, p3, q3, by rw [hX, p1], by rw [hY, q1], by rw [hX]; exact c1, by rw [hY]; exact c2, hX, hY, ?_, ?_, v2⟩
    · rw [blend32_same _ _ (hb _ _ _) (hb _ _ _) (hb _ _ _) (hb _ _ _), v1]; rfl
    · have fx := Int.floor_le P
      have fx2 := Int.lt_floor_add_one P
      have fy := Int.floor_le Q
      have fy2 := Int.lt_floor_add_one Q
      have B := bilinear_le (dx := P - ⌊P⌋) (dy := Q - ⌊Q⌋) ⟨by linarith, by linarith⟩ ⟨by linarith, by linarith⟩
        (hb X Y c) (hb (X + 1 : Nat) Y c) (hb X (Y + 1 : Nat) c) (hb (X + 1 : Nat) (Y + 1 : Nat) c)
      have cc : ∀ a b, (p.rgba a b c : ℚ) ≤ 65535 := fun a b => by exact_mod_cast hb a b c
      have v3 := (abs_le.1 v2).2
      have hs : ((p.rgba X Y c : ℚ) + p.rgba (X + 1 : Nat) Y c + p.rgba X (Y + 1 : Nat) c + p.rgba (X + 1 : Nat) (Y + 1 : Nat) c) / 2 ^ 49 ≤ 1 := by
        rw [div_le_one (by norm_num)]
        have := cc X Y; have := cc (X + 1 : Nat) Y; have := cc X (Y + 1 : Nat); have := cc (X + 1 : Nat) (Y + 1 : Nat)
        have : (262140 : ℚ) ≤ 2 ^ 49 := by norm_num
        linarith
      have B' : bilinear (P - ⌊P⌋) (Q - ⌊Q⌋) (Conv.toF (F64.mk (p.rgba X Y c : ℚ))) (Conv.toF (F64.mk (p.rgba (X + 1 : Nat) Y c : ℚ)))
        (Conv.toF (F64.mk (p.rgba X (Y + 1 : Nat) c : ℚ))) (Conv.toF (F64.mk (p.rgba (X + 1 : Nat) (Y + 1 : Nat) c : ℚ))) ≤ 65535 := B
      have vb : v ≤ 65536 := by linarith
      have : ⌊v⌋ ≤ 65536 := by
        have := Int.floor_le v
        have h2 : ((⌊v⌋ : ℤ) : ℚ) ≤ ((65536 : ℤ) : ℚ) := by push_cast; linarith
        exact_mod_cast h2
      have h3 : (65536 : Nat) ≤ 2 ^ 53 := by norm_num
      omega
  obtain ⟨r, h', e, N⟩ := load_pixels w hh (fun x y c => Img.blend32 (frac p.width w x) (frac p.height hh y)
      (p.rgba (srcCoord p.width w x : Nat) (srcCoord p.height hh y : Nat) c) (p.rgba (srcCoord p.width w x + 1 : Nat) (srcCoord p.height hh y : Nat) c)
      (p.rgba (srcCoord p.width w x : Nat) (srcCoord p.height hh y + 1 : Nat) c) (p.rgba (srcCoord p.width w x + 1 : Nat) (srcCoord p.height hh y + 1 : Nat) c))
    (fun x y c hx hy => by
      obtain ⟨P, Q, v, X, Y, _, _, _, _, _, _, rfl, rfl, k1, k2, _⟩ := key c x y hx hy
      rw [k1]; exact k2) h hpos
  refine ⟨r, h', _, e, N, rfl, fun c x y hx hy => ?_⟩
  obtain ⟨P, Q, v, X, Y, k1, k2, k3, k4, k5, k6, rfl, rfl, k7, _, k8⟩ := key c x y hx hy
  refine ⟨P, Q, v, _, _, k1, k2, k3, k4, k5, k6, ?_, k8⟩
  simp only [List.getD_cons_zero, List.getD_cons_succ]
  rw [k7]

/-- C65: `LoadSmoothScaled` to the size of the image gives what `LoadImage` gives -/
theorem C65_load_smooth_same (p : Picture) (hb : ∀ x y c, p.rgba x y c ≤ 65535)
    (bW : p.width ≤ 2 ^ 53) (bH : p.height ≤ 2 ^ 53) (h : Heap T) (hpos : 0 < h.next) :
    ∃ r h' t, Img.loadSmoothScaled p p.width p.height h = .ok r h' ∧ NewTensor h h' r t ∧
      ∃ r2 h2, Img.loadImage p h = .ok r2 h2 ∧ NewTensor h h2 r2 t := by
  have fr : ∀ {s x : Nat}, s ≤ 2 ^ 53 → x < s → frac s s x = 0 := fun {s x} hs hx => by
    have h : (s : ℚ) ≠ 0 := by
      have : s ≠ 0 := by omega
      exact_mod_cast this
    unfold frac
    rw [srcCoord_same hs hx, fl64_nat hs, div_self h, fl64_one, mul_one, fl64_nat (by omega : x ≤ 2 ^ 53), fl64_nat (by omega : x ≤ 2 ^ 53), sub_self, fl64_zero]
  have key : ∀ x y c, x < p.width → y < p.height → Img.blend32 (frac p.width p.width x) (frac p.height p.height y)
      (p.rgba (srcCoord p.width p.width x : Nat) (srcCoord p.height p.height y : Nat) c) (p.rgba (srcCoord p.width p.width x + 1 : Nat) (srcCoord p.height p.height y : Nat) c)
      (p.rgba (srcCoord p.width p.width x : Nat) (srcCoord p.height p.height y + 1 : Nat) c) (p.rgba (srcCoord p.width p.width x + 1 : Nat) (srcCoord p.height p.height y + 1 : Nat) c) = p.rgba x y c := by
    intro x y c hx hy
    rw [fr bW hx, fr bH hy, srcCoord_same bW hx, srcCoord_same bH hy]
    exact blend32_corner (le_trans (hb _ _ _) (by norm_num)) _ _ _
  obtain ⟨r, h', e, N⟩ := load_pixels (T := T) p.width p.height (fun x y c => Img.blend32 (frac p.width p.width x) (frac p.height p.height y)
      (p.rgba (srcCoord p.width p.width x : Nat) (srcCoord p.height p.height y : Nat) c) (p.rgba (srcCoord p.width p.width x + 1 : Nat) (srcCoord p.height p.height y : Nat) c)
      (p.rgba (srcCoord p.width p.width x : Nat) (srcCoord p.height p.height y + 1 : Nat) c) (p.rgba (srcCoord p.width p.width x + 1 : Nat) (srcCoord p.height p.height y + 1 : Nat) c))
    (fun x y c hx hy => by
      rw [key x y c hx hy]; exact le_trans (hb _ _ _) (by norm_num)) h hpos
  obtain ⟨r2, h2, e2, N2⟩ := C62_load_image_reads (T := T) p hb h hpos
  refine ⟨r, h', _, e, ?_, r2, h2, e2, N2⟩
  refine ⟨⟨N.holds.shape, N.holds.mul, N.holds.len, N.holds.valid, fun i hi => ?_⟩, N.frame, N.fresh, N.nodup⟩
  rw [N.holds.get i hi]
  obtain ⟨z, x, y, rfl, hz, hx, hy⟩ := inRange_three hi
  simp only [List.getD_cons_zero, List.getD_cons_succ]
  rw [key x y z hx hy]

end scaled

/-- a white pixel; outside of it there is nothing, as in the images of the Go library -/
def whitePixel : Rgba := ⟨1, 1, fun _ _ _ => 255⟩

/-- at the right edge the neighbour is outside the image and counts as 0: scaling one white pixel to two pixels with
`LoadSmoothScaled` gives one white pixel and one of half the level -/
theorem C65_edge_darkens (h : Heap F64) (hpos : 0 < h.next) :
    ∃ r h', Img.loadSmoothScaled whitePixel.picture 2 1 h = .ok r h' ∧ r.get [0, 0, 0] h' = .ok (⟨1⟩ : F64) ∧
      ∃ v : F64, r.get [0, 1, 0] h' = .ok v ∧ v.val ≤ 1 / 2 := by
  obtain ⟨r, h', e, N⟩ := load_pixels (T := F64) 2 1 (fun x y c => Img.blend32 (frac 1 2 x) (frac 1 1 y)
      (whitePixel.picture.rgba (srcCoord 1 2 x : Nat) (srcCoord 1 1 y : Nat) c) (whitePixel.picture.rgba (srcCoord 1 2 x + 1 : Nat) (srcCoord 1 1 y : Nat) c)
      (whitePixel.picture.rgba (srcCoord 1 2 x : Nat) (srcCoord 1 1 y + 1 : Nat) c) (whitePixel.picture.rgba (srcCoord 1 2 x + 1 : Nat) (srcCoord 1 1 y + 1 : Nat) c))
    (fun x y c hx hy => by
      have : ∀ x < 2, ∀ y < 1, Img.blend32 (frac 1 2 x) (frac 1 1 y)
          (whitePixel.picture.rgba (srcCoord 1 2 x : Nat) (srcCoord 1 1 y : Nat) 0) (whitePixel.picture.rgba (srcCoord 1 2 x + 1 : Nat) (srcCoord 1 1 y : Nat) 0)
          (whitePixel.picture.rgba (srcCoord 1 2 x : Nat) (srcCoord 1 1 y + 1 : Nat) 0) (whitePixel.picture.rgba (srcCoord 1 2 x + 1 : Nat) (srcCoord 1 1 y + 1 : Nat) 0) ≤ 2 ^ 53 := by
        decide +kernel
      exact this x hx y hy) h hpos
  refine ⟨r, h', e, ?_, _, N.holds.get [0, 1, 0] (inRange3.2 ⟨by decide, by decide, by decide⟩), ?_⟩
  · rw [N.holds.get [0, 0, 0] (inRange3.2 ⟨by decide, by decide, by decide⟩)]
    congr 1
    refine congrArg F64.mk ?_
    decide +kernel
  · decide +kernel

/-! the hypotheses are met: an image of 3 columns and 2 rows with different bytes, and the picture it is -/

def smallImage : Rgba := ⟨3, 2, fun x y c => (40 * x + 17 * y + 60 * c) % 256⟩

example : smallImage.Bytes := fun _ _ _ => Nat.mod_lt _ (by norm_num)

theorem picture_le (a : Rgba) (ha : a.Bytes) (x y : ℤ) (c : Nat) : a.picture.rgba x y c ≤ 65535 := by
  unfold Rgba.picture
  dsimp only
  split
  · have := ha x.toNat y.toNat c
    omega
  · omega

example : ∃ p : Picture, (p.minX = 0 ∧ p.minY = 0) ∧ (∀ x y c, p.rgba x y c ≤ 65535) ∧ 0 < p.width ∧ 0 < p.height ∧
    p.width ≤ 2 ^ 53 ∧ p.height ≤ 2 ^ 53 ∧ p.rgba 1 1 2 ≠ p.rgba 2 0 3 :=
  ⟨smallImage.picture, ⟨rfl, rfl⟩, picture_le _ (fun _ _ _ => Nat.mod_lt _ (by norm_num)), by decide, by decide, by decide, by decide, by decide⟩

end Godeep.Props
