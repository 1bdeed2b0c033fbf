import Verif.Model.Mat
/-
  Saving and loading tensors: `tensor/tensor_mat.go:164-231`, and what it uses of `encoding/binary`
  and `io`.
-/
namespace Godeep

/-- one byte of a stream -/
abbrev Byte := BitVec 8

/-- How `encoding/binary` sees an element type: the number of bytes and the bit pattern
(`math.Float32bits` and so on; for integers two's complement).  `fixed` is false for `int`, which
`encoding/binary` refuses because its size depends on the platform. -/
class Bin (T : Type) where
  fixed : Bool
  width : Nat
  bits : T → BitVec (8 * width)
  ofBits : BitVec (8 * width) → T
  ofBits_bits : ∀ x, ofBits (bits x) = x
  width_pos : 0 < width

/-- `int16` arithmetic (one of the element types of `types/type.go:3-5`); used for concrete cases -/
instance : GoNum (BitVec 16) where
  zero := 0
  one := 1
  add := (· + ·)
  sub := (· - ·)
  mul := (· * ·)
  div x y := BitVec.sdiv x y
  neg x := -x
  divPanics _ y := y == 0
  lt x y := decide (x.toInt < y.toInt)
  eq x y := x == y
  ofNat n := BitVec.ofNat 16 n

instance : Bin (BitVec 16) where
  fixed := true
  width := 2
  bits x := x
  ofBits x := x
  ofBits_bits _ := rfl
  width_pos := by decide

namespace Bin
variable {T : Type} [Bin T]

/-- `binary.LittleEndian`: least significant byte first -/
def encode (x : T) : List Byte :=
  (List.range (width T)).map fun i => (bits x).extractLsb' (8 * i) 8

/-- the number whose base-256 digits are the bytes, least significant first -/
def digits : List Byte → Nat
  | [] => 0
  | b :: bs => b.toNat + 256 * digits bs

/-- little-endian decoding -/
def decode (bs : List Byte) : T := ofBits (BitVec.ofNat _ (digits bs))

end Bin

/-- An `io.Writer`: the bytes it has received, and how many more it takes before it fails
(`none`: never). -/
structure Sink where
  out : List Byte
  room : Option Nat

namespace Sink

/-- `w.Write(bs)`: a writer that cannot take all bytes takes what it can and reports an error -/
def write (bs : List Byte) (w : Sink) : Out Sink Unit :=
  match w.room with
  | none => .ok () ⟨w.out ++ bs, none⟩
  | some n =>
    if bs.length ≤ n then .ok () ⟨w.out ++ bs, some (n - bs.length)⟩
    else .err (.other "write failed") ⟨w.out ++ bs.take n, some 0⟩

/-- `binary.Write(w, binary.LittleEndian, v)` for a value of an element type: one `Write` call, or
an error before anything is written if the type is not of fixed size -/
def put {T : Type} [Bin T] (v : T) (w : Sink) : Out Sink Unit :=
  if Bin.fixed T then w.write (Bin.encode v) else .err (.other "not fixed-size") w

/-- `binary.Write(w, binary.LittleEndian, v)` for `v` of type `int` or `uint`: always refused -/
def putInt (_ : Nat) (w : Sink) : Out Sink Unit := .err (.other "not fixed-size") w

end Sink

/-- `io.ReadFull` into a buffer of `n` bytes, on a stream holding the given bytes -/
def readFull (n : Nat) (s : List Byte) : Out (List Byte) (List Byte) :=
  if n ≤ s.length then .ok (s.take n) (s.drop n)
  else .err (.other (if s = [] then "EOF" else "unexpected EOF")) []

/-- `binary.Read(r, binary.LittleEndian, &v)` for an element type -/
def readElem (T : Type) [Bin T] (s : List Byte) : Out (List Byte) T :=
  if Bin.fixed T then (readFull (Bin.width T) s).map Bin.decode
  else .err (.other "invalid type") s

/-- `binary.Read` into an `*int` or `*uint`: always refused -/
def readInt (s : List Byte) : Out (List Byte) Nat := .err (.other "invalid type") s

namespace Mat
variable {T : Type} [Bin T]

/-- loop of `tensor/tensor_mat.go:213-218` (and 175-180) -/
def saveOps (h : Heap T) : List Ptr → Sink → Out Sink Unit
  | [], w => .ok () w
  | p :: ps, w =>
    match h.load p with
    | .ok v => (w.put v).bind fun _ w => saveOps h ps w
    | .err e => .err e w
    | .panic => .panic

/-- `tensor/tensor_mat.go:212-220` `Save` -/
def save (m : Mat) (h : Heap T) (w : Sink) : Out Sink Unit := saveOps h m.ops w

/-- loop of `tensor/tensor_mat.go:169-174` -/
def saveShape : List Nat → Sink → Out Sink Unit
  | [], w => .ok () w
  | n :: ns, w => (w.putInt n).bind fun _ w => saveShape ns w

/-- `tensor/tensor_mat.go:164-182` `SaveFull` -/
def saveFull (m : Mat) (h : Heap T) (w : Sink) : Out Sink Unit :=
  (w.putInt m.shape.length).bind fun _ w =>
    (saveShape m.shape w).bind fun _ w => saveOps h m.ops w

/-- loop of `tensor/tensor_mat.go:223-228` (and 202-207): `&p.Operands[i].Value` of a nil pointer
panics -/
def loadOps : List Ptr → Heap T × List Byte → Out (Heap T × List Byte) Unit
  | [], s => .ok () s
  | p :: ps, (h, r) =>
    if p = 0 then .panic
    else
      match readElem T r with
      | .ok v r' => loadOps ps (h.put p v, r')
      | .err e r' => .err e (h, r')
      | .panic => .panic

/-- `tensor/tensor_mat.go:222-231` `Load` -/
def load (m : Mat) (h : Heap T) (r : List Byte) : Out (Heap T × List Byte) Unit :=
  loadOps m.ops (h, r)

/-- loop of `tensor/tensor_mat.go:192-197` -/
def loadShape : Nat → List Nat → List Byte → Out (List Byte) (List Nat)
  | 0, acc, r => .ok acc r
  | n + 1, acc, r => (readInt r).bind fun v r => loadShape n (acc ++ [v]) r

/-- `tensor/tensor_mat.go:184-210` `LoadFull`: returns the tensor's new fields.  The entries of the
new `Operands` slice are nil. -/
def loadFull (m : Mat) (h : Heap T) (r : List Byte) : Out (Heap T × List Byte × Mat) Unit :=
  match readInt r with
  | .err e r => .err e (h, r, m)
  | .panic => .panic
  | .ok dims r =>
    match loadShape dims [] r with
    | .err e r => .err e (h, r, m)
    | .panic => .panic
    | .ok shape r =>
      let ops := List.replicate (dataSize shape) 0
      let m' : Mat := ⟨shape, indexMul shape, ops⟩
      match loadOps ops (h, r) with
      | .ok _ s => .ok () (s.1, s.2, m')
      | .err e s => .err e (s.1, s.2, m')
      | .panic => .panic

end Mat
end Godeep
