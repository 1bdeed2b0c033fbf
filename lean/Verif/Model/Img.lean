import Verif.Model.Mat
import Verif.Model.Float64
/-
  Package `img`: the two scaling functions on tensors.  `Model/Picture.lean` has the conversions between images and tensors; opening,
  decoding and encoding of files (the rest of `img/image.go`, `PngSave`, `JpgSave`) is not modelled.
-/
namespace Godeep
open GoNum

/-- the conversions `float64(x)` and `T(x)` between the element type and `float64` -/
class Conv (T : Type) where
  toF : T → ℚ
  ofF : ℚ → T

namespace Img
variable {T : Type} [GoNum T]

/-- a `for` loop whose body may return an error -/
def each {ι : Type} : List ι → (ι → Heap T → Out (Heap T) Unit) → Heap T → Out (Heap T) Unit
  | [], _, h => .ok () h
  | i :: l, f, h => (f i h).bind fun _ h => each l f h

/-- a call whose error is dropped -/
def ignoreErr (r : Out (Heap T) Unit) : Out (Heap T) Unit :=
  match r with
  | .err _ h => .ok () h
  | r => r

/-- `img/simple_scale.go:9-44` `SimpleScale` -/
def simpleScale (img : Mat) (width height : Nat) (h : Heap T) : Out (Heap T) Mat :=
  match img.shape with
  | [depth, w, hh] =>
    (Mat.newZeros [depth, width, height] h).bind fun newImg h =>
      let scalX := fl64 (fl64 w / fl64 width)
      let scalY := fl64 (fl64 hh / fl64 height)
      (each (List.range width) (fun x => each (List.range height) fun y =>
        let X := truncNat (fl64 (fl64 x * scalX))
        let Y := truncNat (fl64 (fl64 y * scalY))
        each (List.range depth) fun d h =>
          (Out.ofRes h (img.get [d, X, Y] h)).bind fun c h =>
            ignoreErr (newImg.set c [d, x, y] h)) h).map fun _ => newImg
  | _ => .err (.other "The given tensor is not an image") h

variable [Conv T]

/-- the interpolation of `img/smooth_scale.go:101-111`, with a rounding after every operation (Go may
fuse a product and a sum into one rounding on some machines; not modelled) -/
def blend (dx dy : ℚ) (p1 p2 p3 p4 : T) : T :=
  let a := fl64 (1 - dx)
  let b := fl64 (1 - dy)
  Conv.ofF (fl64 (fl64 (fl64 (fl64 (fl64 (a * b) * Conv.toF p1) + fl64 (fl64 (dx * b) * Conv.toF p2)) +
    fl64 (fl64 (a * dy) * Conv.toF p3)) + fl64 (fl64 (dx * dy) * Conv.toF p4)))

/-- `img/smooth_scale.go:58-120` `SmoothScale`; the result always has 4 channels -/
def smoothScale (img : Mat) (width height : Nat) (h : Heap T) : Out (Heap T) Mat :=
  match img.shape with
  | [depth, w, hh] =>
    let scaleX := fl64 (fl64 w / fl64 width)
    let scaleY := fl64 (fl64 hh / fl64 height)
    (Mat.newZeros [4, width, height] h).bind fun t h =>
      (each (List.range width) (fun x => each (List.range height) fun y =>
        let srcX := truncNat (fl64 (fl64 x * scaleX))
        let srcY := truncNat (fl64 (fl64 y * scaleY))
        let dx := fl64 (fl64 (fl64 x * scaleX) - fl64 srcX)
        let dy := fl64 (fl64 (fl64 y * scaleY) - fl64 srcY)
        each (List.range depth) fun d h =>
          (Out.ofRes h (img.get [d, srcX, srcY] h)).bind fun p1 h =>
          (Out.ofRes h (img.get [d, srcX + 1, srcY] h)).bind fun p2 h =>
          (Out.ofRes h (img.get [d, srcX, srcY + 1] h)).bind fun p3 h =>
          (Out.ofRes h (img.get [d, srcX + 1, srcY + 1] h)).bind fun p4 h =>
            ignoreErr (t.set (blend dx dy p1 p2 p3 p4) [d, x, y] h)) h).map fun _ => t
  | _ => .err (.other "The given tensor is not an image") h

end Img
end Godeep
