import Verif.Model.F16
/-
  The `scalar` package: numbers of three precisions behind one interface.  Numbers are bit patterns.
  What the machine does with `float32` and `float64` values is a parameter, `Machine`; the theorems
  say what they need of it.  A method that changes its receiver is a function that returns the new
  receiver.  `String` is not modelled.
-/
namespace Godeep.Scal

/-- Go's operators and conversions on `float32` and `float64` bit patterns (Go specification,
"Arithmetic operators", "Comparison operators" and "Conversions") -/
structure Machine where
  add32 : BitVec 32 → BitVec 32 → BitVec 32
  sub32 : BitVec 32 → BitVec 32 → BitVec 32
  mul32 : BitVec 32 → BitVec 32 → BitVec 32
  div32 : BitVec 32 → BitVec 32 → BitVec 32
  lt32 : BitVec 32 → BitVec 32 → Bool
  add64 : BitVec 64 → BitVec 64 → BitVec 64
  sub64 : BitVec 64 → BitVec 64 → BitVec 64
  mul64 : BitVec 64 → BitVec 64 → BitVec 64
  div64 : BitVec 64 → BitVec 64 → BitVec 64
  lt64 : BitVec 64 → BitVec 64 → Bool
  to32 : BitVec 64 → BitVec 32
  to64 : BitVec 32 → BitVec 64

/-- the types behind the interface: `scalar/f16.go:8-10`, `scalar/f32.go:5-7`, `scalar/f64.go:5-7` -/
inductive Scalar where
  | f16 (value : BitVec 16)
  | f32 (value : BitVec 32)
  | f64 (value : BitVec 64)
  deriving DecidableEq

/-- `scalar/scalar.go:3-9` -/
inductive CmpRes where
  | less | equal | greater
  deriving DecidableEq, Repr

variable (hw : Machine)

/-- `scalar/f16.go:13-15` `F16fromF32` -/
def f16fromF32 (v : BitVec 32) : Scalar := .f16 (F16.narrow v)

/-- `scalar/f16.go:17-19` `F16fromF64` -/
def f16fromF64 (v : BitVec 64) : Scalar := f16fromF32 (hw.to32 v)

/-- `scalar/f32.go:10-14` `NewF32` -/
def newF32 (v : BitVec 32) : Scalar := .f32 v

/-- `scalar/f32.go:16-20` `F32fromF64` -/
def f32fromF64 (v : BitVec 64) : Scalar := .f32 (hw.to32 v)

/-- `scalar/f64.go:10-14` `NewF64` -/
def newF64 (v : BitVec 64) : Scalar := .f64 v

/-- `scalar/f64.go:16-20` `F64fromF32` -/
def f64fromF32 (v : BitVec 32) : Scalar := .f64 (hw.to64 v)

/-- `G32`: `scalar/f16.go:22-25`, `scalar/f32.go:23-23`, `scalar/f64.go:23-23` -/
def Scalar.g32 : Scalar → BitVec 32
  | .f16 v => F16.widen v
  | .f32 v => v
  | .f64 v => hw.to32 v

/-- `G64`: `scalar/f16.go:27-29`, `scalar/f32.go:24-24`, `scalar/f64.go:24-24` -/
def Scalar.g64 : Scalar → BitVec 64
  | .f16 v => hw.to64 (F16.widen v)
  | .f32 v => hw.to64 v
  | .f64 v => v

/-- `S32`: `scalar/f16.go:31-33`, `scalar/f32.go:25-25`, `scalar/f64.go:25-25` -/
def Scalar.s32 (p : Scalar) (v : BitVec 32) : Scalar :=
  match p with
  | .f16 _ => .f16 (F16.narrow v)
  | .f32 _ => .f32 v
  | .f64 _ => .f64 (hw.to64 v)

/-- `S64`: `scalar/f16.go:35-37`, `scalar/f32.go:26-26`, `scalar/f64.go:26-26` -/
def Scalar.s64 (p : Scalar) (v : BitVec 64) : Scalar :=
  match p with
  | .f16 _ => p.s32 hw (hw.to32 v)
  | .f32 _ => .f32 (hw.to32 v)
  | .f64 _ => .f64 v

/-- `Copy`: `scalar/f16.go:39-41`, `scalar/f32.go:28-28`, `scalar/f64.go:28-28` -/
def Scalar.copy : Scalar → Scalar
  | .f16 v => .f16 v
  | .f32 v => .f32 v
  | .f64 v => .f64 v

/-- `Add`: `scalar/f16.go:44-46`, `scalar/f32.go:31-31`, `scalar/f64.go:31-31` -/
def Scalar.add (p v : Scalar) : Scalar :=
  match p with
  | .f16 _ => f16fromF32 (hw.add32 (p.g32 hw) (v.g32 hw))
  | .f32 x => .f32 (hw.add32 x (v.g32 hw))
  | .f64 x => .f64 (hw.add64 x (v.g64 hw))

/-- `Sub`: `scalar/f16.go:48-50`, `scalar/f32.go:32-32`, `scalar/f64.go:32-32` -/
def Scalar.sub (p v : Scalar) : Scalar :=
  match p with
  | .f16 _ => f16fromF32 (hw.sub32 (p.g32 hw) (v.g32 hw))
  | .f32 x => .f32 (hw.sub32 x (v.g32 hw))
  | .f64 x => .f64 (hw.sub64 x (v.g64 hw))

/-- `Mul`: `scalar/f16.go:52-54`, `scalar/f32.go:33-33`, `scalar/f64.go:33-33` -/
def Scalar.mul (p v : Scalar) : Scalar :=
  match p with
  | .f16 _ => f16fromF32 (hw.mul32 (p.g32 hw) (v.g32 hw))
  | .f32 x => .f32 (hw.mul32 x (v.g32 hw))
  | .f64 x => .f64 (hw.mul64 x (v.g64 hw))

/-- `Div`: `scalar/f16.go:56-58`, `scalar/f32.go:34-34`, `scalar/f64.go:34-34` -/
def Scalar.div (p v : Scalar) : Scalar :=
  match p with
  | .f16 _ => f16fromF32 (hw.div32 (p.g32 hw) (v.g32 hw))
  | .f32 x => .f32 (hw.div32 x (v.g32 hw))
  | .f64 x => .f64 (hw.div64 x (v.g64 hw))

/-- `SelfAdd`: `scalar/f16.go:61-63`, `scalar/f32.go:37-37`, `scalar/f64.go:37-37` -/
def Scalar.selfAdd (p v : Scalar) : Scalar :=
  match p with
  | .f16 _ => p.s32 hw (hw.add32 (p.g32 hw) (v.g32 hw))
  | .f32 x => p.s32 hw (hw.add32 x (v.g32 hw))
  | .f64 x => p.s64 hw (hw.add64 x (v.g64 hw))

/-- `SelfSub`: `scalar/f16.go:65-67`, `scalar/f32.go:38-38`, `scalar/f64.go:38-38` -/
def Scalar.selfSub (p v : Scalar) : Scalar :=
  match p with
  | .f16 _ => p.s32 hw (hw.sub32 (p.g32 hw) (v.g32 hw))
  | .f32 x => p.s32 hw (hw.sub32 x (v.g32 hw))
  | .f64 x => p.s64 hw (hw.sub64 x (v.g64 hw))

/-- `SelfMul`: `scalar/f16.go:69-71`, `scalar/f32.go:39-39`, `scalar/f64.go:39-39` -/
def Scalar.selfMul (p v : Scalar) : Scalar :=
  match p with
  | .f16 _ => p.s32 hw (hw.mul32 (p.g32 hw) (v.g32 hw))
  | .f32 x => p.s32 hw (hw.mul32 x (v.g32 hw))
  | .f64 x => p.s64 hw (hw.mul64 x (v.g64 hw))

/-- `SelfDiv`: `scalar/f16.go:73-75`, `scalar/f32.go:40-40`, `scalar/f64.go:40-40` -/
def Scalar.selfDiv (p v : Scalar) : Scalar :=
  match p with
  | .f16 _ => p.s32 hw (hw.div32 (p.g32 hw) (v.g32 hw))
  | .f32 x => p.s32 hw (hw.div32 x (v.g32 hw))
  | .f64 x => p.s64 hw (hw.div64 x (v.g64 hw))

/-- `Cmp`: `scalar/f16.go:77-85`, `scalar/f32.go:42-50`, `scalar/f64.go:42-50`.  `a > b` is `b < a`. -/
def Scalar.cmp (p v : Scalar) : CmpRes :=
  match p with
  | .f64 _ =>
    if hw.lt64 (p.g64 hw) (v.g64 hw) then .less
    else if hw.lt64 (v.g64 hw) (p.g64 hw) then .greater
    else .equal
  | _ =>
    if hw.lt32 (p.g32 hw) (v.g32 hw) then .less
    else if hw.lt32 (v.g32 hw) (p.g32 hw) then .greater
    else .equal

end Godeep.Scal
