import Verif.Model.Bits
/-
  `Bit.h` and `BitFlag.h` for signed target types `T` of `n` bits (the Bit example uses them on an `int`, Bit.ino 23, 27), on a target whose `int` has `W` bits.

  A signed operand narrower than `int` is promoted by sign extension, one wider than `int` makes the other operand wider: both operands of `|`, `&`, `^` and `>`
  are sign extended to the wider of `T` and `int`, and the compound assignment converts the result back to `T` (modulo `2^n`, as avr-gcc and MSVC do).
-/
namespace Atl.Bits.Signed

/-- The operand as the operator sees it (the operators of Bit.h 38-117 and BitFlag.h 38-150). -/
def wide (W : Nat) {n : Nat} (x : BitVec n) : BitVec (max n W) := x.signExtend (max n W)

/-- Conversion of the result back to `T` (the operators of Bit.h 38-117 and BitFlag.h 38-150). -/
def narrow {w : Nat} (n : Nat) (x : BitVec w) : BitVec n := x.setWidth n

namespace Bit

/-- `Set`, Bit.h 43-47; the mask (115-120) has type `T`. -/
def set (W : Nat) {n : Nat} (i : Nat) (t : BitVec n) : Res (BitVec n) := do
  let m ← Bits.Bit.getMask W n i
  .ok (narrow n (wide W t ||| wide W m))

/-- `Set(target, value)`, Bit.h 54-67. -/
def setBool (W : Nat) {n : Nat} (i : Nat) (t : BitVec n) (v : Bool) : Res (BitVec n) := do
  let m ← Bits.Bit.getMask W n i
  let t := narrow n (wide W t &&& ~~~(wide W m))
  .ok (if v then narrow n (wide W t ||| wide W m) else t)

/-- `Reset`, Bit.h 73-78. -/
def reset (W : Nat) {n : Nat} (i : Nat) (t : BitVec n) : Res (BitVec n) := do
  let m ← Bits.Bit.getMask W n i
  .ok (narrow n (wide W t &&& ~~~(wide W m)))

/-- `Toggle`, Bit.h 84-88. -/
def toggle (W : Nat) {n : Nat} (i : Nat) (t : BitVec n) : Res (BitVec n) := do
  let m ← Bits.Bit.getMask W n i
  .ok (narrow n (wide W t ^^^ wide W m))

/-- `IsTrue`, Bit.h 94-98: `(target & mask) > 0` is a signed comparison here. -/
def isTrue (W : Nat) {n : Nat} (i : Nat) (t : BitVec n) : Res Bool := do
  let m ← Bits.Bit.getMask W n i
  .ok (decide ((wide W t &&& wide W m).toInt > 0))

/-- `IsFalse`, Bit.h 104-108. -/
def isFalse (W : Nat) {n : Nat} (i : Nat) (t : BitVec n) : Res Bool := do
  let m ← Bits.Bit.getMask W n i
  .ok (decide ((wide W t &&& wide W m).toInt = 0))

end Bit

namespace BitFlag

/-- `Set(target, bitIndex)`, BitFlag.h 47-53. -/
def set (W : Nat) {n : Nat} (t : BitVec n) (i : Nat) : Res (BitVec n) :=
  if Bits.BitFlag.rejects n i then .ok t
  else do
    let m ← Bits.BitFlag.bitToMask W n i
    .ok (narrow n (wide W t ||| wide W m))

/-- `Set(target, bitIndex, value)`, BitFlag.h 61-76. -/
def setBool (W : Nat) {n : Nat} (t : BitVec n) (i : Nat) (v : Bool) : Res (BitVec n) :=
  if Bits.BitFlag.rejects n i then .ok t
  else do
    let m ← Bits.BitFlag.bitToMask W n i
    let t := narrow n (wide W t &&& ~~~(wide W m))
    .ok (if v then narrow n (wide W t ||| wide W m) else t)

/-- `Reset(target, bitIndex)`, BitFlag.h 83-90. -/
def reset (W : Nat) {n : Nat} (t : BitVec n) (i : Nat) : Res (BitVec n) :=
  if Bits.BitFlag.rejects n i then .ok t
  else do
    let m ← Bits.BitFlag.bitToMask W n i
    .ok (narrow n (wide W t &&& ~~~(wide W m)))

/-- `Toggle(target, bitIndex)`, BitFlag.h 97-103. -/
def toggle (W : Nat) {n : Nat} (t : BitVec n) (i : Nat) : Res (BitVec n) :=
  if Bits.BitFlag.rejects n i then .ok t
  else do
    let m ← Bits.BitFlag.bitToMask W n i
    .ok (narrow n (wide W t ^^^ wide W m))

/-- `IsTrue(target, bitIndex)`, BitFlag.h 111-117. -/
def isTrue (W : Nat) {n : Nat} (t : BitVec n) (i : Nat) : Res Bool :=
  if Bits.BitFlag.rejects n i then .ok false
  else do
    let m ← Bits.BitFlag.bitToMask W n i
    .ok (decide ((wide W t &&& wide W m).toInt > 0))

/-- `IsFalse(target, bitIndex)`, BitFlag.h 125-131. -/
def isFalse (W : Nat) {n : Nat} (t : BitVec n) (i : Nat) : Res Bool :=
  if Bits.BitFlag.rejects n i then .ok false
  else do
    let m ← Bits.BitFlag.bitToMask W n i
    .ok (decide ((wide W t &&& wide W m).toInt = 0))

end BitFlag

/-! ### `BitArray<T>` for a signed `T` (BitArray.h 28-31 names "(unsigned) integer types") -/

namespace BitArray

/-- `x << k` converted back to `T`, for the `<<=` of BitArray.h 70-75, 97, 203, 238, 259: the shift takes place in the wider of `T` and `int` and is
    undefined from that width on; shifting a bit into or out of the sign bit is defined as avr-gcc does it (the bits leave at the top). -/
def shl (W : Nat) {n : Nat} (x : BitVec n) (k : Nat) : Res (BitVec n) :=
  if k < max n W then .ok (narrow n (wide W x <<< k)) else .ub

/-- `x >> k` converted back to `T`, for the `>>=` of BitArray.h 101, 201, 247: the arithmetic shift of a signed operand (implementation defined; avr-gcc and MSVC). -/
def shr (W : Nat) {n : Nat} (x : BitVec n) (k : Nat) : Res (BitVec n) :=
  if k < max n W then .ok (narrow n ((wide W x).sshiftRight k)) else .ub

/-- `CreateMask(count)`, BitArray.h 253-264. -/
def createMask (W n : Nat) : Nat → Res (BitVec n)
  | 0 => .ok 0
  | c + 1 => do
    let m ← createMask W n c
    let m ← shl W m 1
    .ok (narrow n (wide W m ||| 1))

/-- `Set(bitIndex, value, bitCount)`, BitArray.h 64-82. -/
def setField (W : Nat) {n : Nat} (bits : BitVec n) (idx : Nat) (value : BitVec n) (cnt : Nat) : Res (BitVec n × Bool) :=
  if !Bits.BitArray.isValidIndex n idx cnt then .ok (bits, false)
  else do
    let mask ← createMask W n cnt
    let value := narrow n (wide W value &&& wide W mask)
    let mask ← shl W mask idx
    let value ← shl W value idx
    let bits := narrow n (wide W bits &&& ~~~(wide W mask))
    .ok (narrow n (wide W bits ||| wide W value), true)

/-- `Get(bitIndex, bitCount)`, BitArray.h 90-104. -/
def getField (W : Nat) {n : Nat} (bits : BitVec n) (idx cnt : Nat) : Res (BitVec n) :=
  if !Bits.BitArray.isValidIndex n idx cnt then .ok 0
  else do
    let mask ← createMask W n cnt
    let mask ← shl W mask idx
    shr W (narrow n (wide W bits &&& wide W mask)) idx

/-- `Set(bitIndex, bool)`, BitArray.h 111-126; the mask is converted to `T` first. -/
def setBool (W : Nat) {n : Nat} (bits : BitVec n) (idx : Nat) (v : Bool) : Res (BitVec n × Bool) :=
  if !Bits.BitArray.isValidIndex n idx 1 then .ok (bits, false)
  else do
    let m ← shlOne W idx
    let mask := intToT n m
    let b := narrow n (wide W bits &&& ~~~(wide W mask))
    .ok (if v then narrow n (wide W b ||| wide W mask) else b, true)

/-- `Set(bitIndex)`, BitArray.h 132-140; here the mask stays an `int`. -/
def set (W : Nat) {n : Nat} (bits : BitVec n) (idx : Nat) : Res (BitVec n × Bool) :=
  if !Bits.BitArray.isValidIndex n idx 1 then .ok (bits, false)
  else do
    let m ← shlOne W idx
    .ok (narrow n (wide W bits ||| m.signExtend (max n W)), true)

/-- `Reset(bitIndex)`, BitArray.h 155-163. -/
def reset (W : Nat) {n : Nat} (bits : BitVec n) (idx : Nat) : Res (BitVec n × Bool) :=
  if !Bits.BitArray.isValidIndex n idx 1 then .ok (bits, false)
  else do
    let m ← shlOne W idx
    .ok (narrow n (wide W bits &&& (~~~m).signExtend (max n W)), true)

/-- `IsTrue(bitIndex)`, BitArray.h 176-181 (also `Get(bitIndex)` 146-149 and `operator[]` 220-223): a signed comparison. -/
def isTrue (W : Nat) {n : Nat} (bits : BitVec n) (idx : Nat) : Res Bool :=
  if !Bits.BitArray.isValidIndex n idx 1 then .ok false
  else do
    let m ← shlOne W idx
    .ok (decide ((wide W bits &&& m.signExtend (max n W)).toInt > 0))

/-- `IsFalse(bitIndex)`, BitArray.h 187-192. -/
def isFalse (W : Nat) {n : Nat} (bits : BitVec n) (idx : Nat) : Res Bool :=
  if !Bits.BitArray.isValidIndex n idx 1 then .ok false
  else do
    let m ← shlOne W idx
    .ok (decide ((wide W bits &&& m.signExtend (max n W)).toInt = 0))

/-- `ShiftUp`, BitArray.h 236-239. -/
def shiftUp (W : Nat) {n : Nat} (bits : BitVec n) (k : Nat) : Res (BitVec n) := shl W bits k

/-- `ShiftDown`, BitArray.h 245-248. -/
def shiftDown (W : Nat) {n : Nat} (bits : BitVec n) (k : Nat) : Res (BitVec n) := shr W bits k

/-- Loop of `Reverse`, BitArray.h 197-206 (the specialisations are for `uint8_t` and `uint16_t` only): `c` iterations left, accumulator `rv`. -/
def reverseLoop (W : Nat) {n : Nat} : Nat → BitVec n → BitVec n → Res (BitVec n)
  | 0, _, rv => .ok rv
  | c + 1, bits, rv => do
    let r := narrow n ((wide W rv <<< 1) ||| (wide W bits &&& 1))
    let b ← shr W bits 1
    reverseLoop W c b r

/-- `Reverse`, BitArray.h 197-206. -/
def reverse (W : Nat) {n : Nat} (bits : BitVec n) : Res (BitVec n) := reverseLoop W n bits 0

end BitArray
end Atl.Bits.Signed
