import Verif.Model.Img
/-
  Package `img`: decoded images to tensors and back.  `os.Open`, `image.Decode` and the encoders are not
  modelled: the functions here start from, or end with, the image in memory.
-/
namespace Godeep
open GoNum

/-- `image.Image`: its bounds, and the four 16-bit numbers of `At(x, y).RGBA()` (red, green, blue, alpha) -/
structure Picture where
  minX : ℤ
  minY : ℤ
  width : Nat
  height : Nat
  rgba : ℤ → ℤ → Nat → Nat

/-- `image.RGBA`: size, and the four bytes of the pixel in column `x` of row `y` -/
structure Rgba where
  width : Nat
  height : Nat
  pix : Nat → Nat → Nat → Nat

/-- `image.RGBA` as `image.Image`: bounds start at (0, 0), `color.RGBA.RGBA()` repeats every byte, and
`At` outside the bounds gives zeros (standard library) -/
def Rgba.picture (r : Rgba) : Picture where
  minX := 0
  minY := 0
  width := r.width
  height := r.height
  rgba x y c := if 0 ≤ x ∧ x < r.width ∧ 0 ≤ y ∧ y < r.height then r.pix x.toNat y.toNat c * 257 else 0

/-- the operations of `ToImg` on the element type: the constant `255` and `uint8(x)` -/
class Pix (T : Type) where
  c255 : T
  toByte : T → Nat

namespace Img
variable {T : Type} [GoNum T]

section
variable [Conv T]

/-- `img/image.go:36-40`, `img/image.go:72-76` and `img/image.go:172-175`: the four `Set`s of a pixel; their
errors are dropped -/
def setPixel (t : Mat) (c : Nat → Nat) (i j : Nat) : Heap T → Out (Heap T) Unit :=
  each (List.range 4) fun k h => ignoreErr (t.set (Conv.ofF (fl64 (fl64 (c k) / 65535))) [k, i, j] h)

/-- `img/image.go:28-43`, `LoadImage` after decoding -/
def loadImage (p : Picture) (h : Heap T) : Out (Heap T) Mat :=
  (Mat.newZeros [4, p.width, p.height] h).bind fun t h =>
    (each (List.range p.width) (fun i => each (List.range p.height) fun j =>
      setPixel t (p.rgba i j) i j) h).map fun _ => t

/-- `img/image.go:57-80`, `LoadSimpleScaled` after decoding -/
def loadSimpleScaled (p : Picture) (width height : Nat) (h : Heap T) : Out (Heap T) Mat :=
  let scalX := fl64 (fl64 p.width / fl64 width)
  let scalY := fl64 (fl64 p.height / fl64 height)
  (Mat.newZeros [4, width, height] h).bind fun t h =>
    (each (List.range width) (fun i => each (List.range height) fun j =>
      let X : ℤ := truncNat (fl64 (fl64 i * scalX))
      let Y : ℤ := truncNat (fl64 (fl64 j * scalY))
      setPixel t (p.rgba X Y) i j) h).map fun _ => t

/-- the interpolation of `img/image.go:131-169`: `uint32` of the weighted sum, a rounding after every operation -/
def blend32 (dx dy : ℚ) (p1 p2 p3 p4 : Nat) : Nat :=
  let a := fl64 (1 - dx)
  let b := fl64 (1 - dy)
  truncNat (fl64 (fl64 (fl64 (fl64 (fl64 (a * b) * fl64 p1) + fl64 (fl64 (dx * b) * fl64 p2)) +
    fl64 (fl64 (a * dy) * fl64 p3)) + fl64 (fl64 (dx * dy) * fl64 p4)))

/-- `img/image.go:97-179`, `LoadSmoothScaled` after decoding -/
def loadSmoothScaled (p : Picture) (width height : Nat) (h : Heap T) : Out (Heap T) Mat :=
  let scaleX := fl64 (fl64 p.width / fl64 width)
  let scaleY := fl64 (fl64 p.height / fl64 height)
  (Mat.newZeros [4, width, height] h).bind fun t h =>
    (each (List.range width) (fun x => each (List.range height) fun y =>
      let srcX := truncNat (fl64 (fl64 x * scaleX))
      let srcY := truncNat (fl64 (fl64 y * scaleY))
      let dx := fl64 (fl64 (fl64 x * scaleX) - fl64 srcX)
      let dy := fl64 (fl64 (fl64 y * scaleY) - fl64 srcY)
      setPixel t (fun c => blend32 dx dy (p.rgba srcX srcY c) (p.rgba (srcX + 1 : Nat) srcY c)
        (p.rgba srcX (srcY + 1 : Nat) c) (p.rgba (srcX + 1 : Nat) (srcY + 1 : Nat) c)) x y) h).map fun _ => t
end

/-- one pixel of `img/save.go:32-59`: the four bytes, computed from the channels 0 to 3 -/
def pixelOf [Pix T] (img : Mat) (i j : Nat) (h : Heap T) : Res (List Nat) :=
  (img.get [0, i, j] h).bind fun r => (img.get [1, i, j] h).bind fun g => (img.get [2, i, j] h).bind fun b =>
    (img.get [3, i, j] h).bind fun a => .ok ([r, g, b, a].map fun x => Pix.toByte (mul x (Pix.c255 : T)))

/-- the loops of `img/save.go:30-61` over the remaining positions; `acc` is the image so far -/
def toImgLoop [Pix T] (img : Mat) (h : Heap T) : List (Nat × Nat) → (Nat → Nat → Nat → Nat) → Res (Nat → Nat → Nat → Nat)
  | [], acc => .ok acc
  | (i, j) :: l, acc => (pixelOf img i j h).bind fun c =>
      toImgLoop img h l fun x y k => if x = i ∧ y = j then c.getD k 0 else acc x y k

/-- `img/save.go:15-64` `ToImg`; `image.NewRGBA` is all zeros (for sizes it cannot allocate it panics; not modelled) -/
def toImg [Pix T] (img : Mat) (h : Heap T) : Res Rgba :=
  match img.shape with
  | [_, w, hh] =>
    (toImgLoop img h ((List.range w).flatMap fun i => (List.range hh).map fun j => (i, j)) fun _ _ _ => 0).bind fun pix =>
      .ok ⟨w, hh, pix⟩
  | _ => .err (.other "The given tensor is not an image")

end Img
end Godeep
