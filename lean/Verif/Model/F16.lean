/-
  `scalar/f16.go`: half precision numbers.  Bit patterns are `BitVec 16` / `BitVec 32`, with Go's
  wrapping arithmetic and logical shifts.  Arithmetic on `float32` values is not part of this file.
-/
namespace Godeep.F16

/-- loop of `scalar/f16.go:113-116`: shift left until a bit of the mask is set.  The first argument
bounds the number of rounds; 32 shifts bring any non-zero pattern to the mask. -/
def normalize : Nat → BitVec 32 → BitVec 32 → BitVec 32 × BitVec 32
  | 0, coef, exp => (coef, exp)
  | n + 1, coef, exp =>
    if coef &&& 0x7f800000#32 = 0#32 then normalize n (coef <<< 1) (exp - 1#32) else (coef, exp)

/-- `scalar/f16.go:88-121` `f16bitsToF32bits` -/
def widen (x : BitVec 16) : BitVec 32 :=
  let sign := ((x &&& 0x8000#16).setWidth 32) <<< 16
  let exp := ((x &&& 0x7c00#16).setWidth 32) >>> 10
  let coef := ((x &&& 0x03ff#16).setWidth 32) <<< 13
  if exp = 0x1f#32 then
    if coef = 0#32 then sign ||| 0x7f800000#32 ||| coef
    else sign ||| 0x7fc00000#32 ||| coef
  else if exp = 0#32 then
    if coef = 0#32 then sign
    else
      let r := normalize 32 coef (exp + 1#32)
      sign ||| ((r.2 + (0x7f#32 - 0xf#32)) <<< 23) ||| (r.1 &&& 0x007fffff#32)
  else sign ||| ((exp + (0x7f#32 - 0xf#32)) <<< 23) ||| coef

/-- `scalar/f16.go:125-172` `f32bitsToF16bits`.  `halfExp` is an `int32` in Go and lies between
-112 and 143; here it is an `Int`. -/
def narrow (u : BitVec 32) : BitVec 16 :=
  let sign := u &&& 0x80000000#32
  let exp := u &&& 0x7f800000#32
  let coef := u &&& 0x007fffff#32
  if exp = 0x7f800000#32 then
    let nanBit := if coef ≠ 0#32 then 0x0200#32 else 0#32
    ((sign >>> 16) ||| 0x7c00#32 ||| nanBit ||| (coef >>> 13)).setWidth 16
  else
    let halfSign := sign >>> 16
    let halfExp : Int := ((exp >>> 23).toNat : Int) - 127 + 15
    if halfExp ≥ 0x1f then (halfSign ||| 0x7c00#32).setWidth 16
    else if halfExp ≤ 0 then
      if 14 - halfExp > 24 then halfSign.setWidth 16
      else
        let c := coef ||| 0x00800000#32
        let halfCoef := c >>> (14 - halfExp).toNat
        let roundBit := 1#32 <<< (13 - halfExp).toNat
        if c &&& roundBit ≠ 0#32 ∧ c &&& (3#32 * roundBit - 1#32) ≠ 0#32 then
          (halfSign ||| (halfCoef + 1#32)).setWidth 16
        else (halfSign ||| halfCoef).setWidth 16
    else
      let uHalfExp := (BitVec.ofInt 32 halfExp) <<< 10
      let halfCoef := coef >>> 13
      let roundBit := 0x00001000#32
      if coef &&& roundBit ≠ 0#32 ∧ coef &&& (3#32 * roundBit - 1#32) ≠ 0#32 then
        ((halfSign ||| uHalfExp ||| halfCoef) + 1#32).setWidth 16
      else (halfSign ||| uHalfExp ||| halfCoef).setWidth 16

/-- `scalar/f16.go:174-176` `IsNaN` -/
def isNaN (x : BitVec 16) : Bool := (x &&& 0x7c00#16 == 0x7c00#16) && (x &&& 0x03ff#16 != 0#16)

/-- `scalar/f16.go:178-180` `IsQuietNaN` -/
def isQuietNaN (x : BitVec 16) : Bool :=
  (x &&& 0x7c00#16 == 0x7c00#16) && (x &&& 0x03ff#16 != 0#16) && (x &&& 0x0200#16 != 0#16)

/-- `scalar/f16.go:182-185` `IsInf` -/
def isInf (x : BitVec 16) (sign : Int) : Bool :=
  ((x == 0x7c00#16) && decide (sign ≥ 0)) || ((x == 0xfc00#16) && decide (sign ≤ 0))

/-- `scalar/f16.go:187-189` `IsFinite` -/
def isFinite (x : BitVec 16) : Bool := x &&& 0x7c00#16 != 0x7c00#16

/-- `scalar/f16.go:191-194` `IsNormal` -/
def isNormal (x : BitVec 16) : Bool :=
  let exp := x &&& 0x7c00#16
  (exp != 0x7c00#16) && (exp != 0#16)

/-- `scalar/f16.go:196-198` `Signbit` -/
def signbit (x : BitVec 16) : Bool := x &&& 0x8000#16 != 0#16

/-- `scalar/f16.go:200-202` `F16NaN` -/
def nan : BitVec 16 := 0x7e01#16

/-- `scalar/f16.go:204-209` `F16Inf` -/
def inf (sign : Int) : BitVec 16 := if sign ≥ 0 then 0x7c00#16 else 0x8000#16 ||| 0x7c00#16

end Godeep.F16
