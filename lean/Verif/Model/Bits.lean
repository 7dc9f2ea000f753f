import Verif.Model.Basic
/-
  Model of `BitArray.h`, `Bit.h` and `BitFlag.h` for unsigned word types `T` of `n` bits on a target whose `int`
  has `W` bits (16 on AVR, 32 on the host used by the repo's tests).

  Integer promotion: an operand of type `T` narrower than `int` is promoted to (signed) `int`; otherwise an `int` operand is
  converted (sign-extended) to `T`.  Results are converted back to `T` by truncation.
  The literal `1` in `1 << bitIndex` is an `int`.
-/
namespace Atl.Bits

/-- `1 << i` in type `int` of `W` bits.  Shifting by `W` or more is undefined; `i = W-1` yields the most
    negative value (implementation defined since CWG 1457, this is what gcc and MSVC give) (the operators of BitArray.h 40-290, Bit.h 38-117, BitFlag.h 38-150). -/
def shlOne (W i : Nat) : Res (BitVec W) :=
  if i < W then .ok (1#W <<< i) else .ub

/-- `x << k` where `x : T`; the operation takes place in `int` when `T` is narrower than `int` (the operators of BitArray.h 40-290, Bit.h 38-117, BitFlag.h 38-150). -/
def shlT (W : Nat) {n : Nat} (x : BitVec n) (k : Nat) : Res (BitVec n) :=
  if n < W then
    if k < W ∧ x.toNat * 2 ^ k < 2 ^ W then .ok (x <<< k) else .ub
  else
    if k < n then .ok (x <<< k) else .ub

/-- `x >> k` where `x : T` (unsigned) (the operators of BitArray.h 40-290, Bit.h 38-117, BitFlag.h 38-150). -/
def shrT (W : Nat) {n : Nat} (x : BitVec n) (k : Nat) : Res (BitVec n) :=
  if k < max n W then .ok (x >>> k) else .ub

/-- Conversion of an `int` to `T` (the operators of BitArray.h 40-290, Bit.h 38-117, BitFlag.h 38-150). -/
def intToT {W : Nat} (n : Nat) (x : BitVec W) : BitVec n := x.signExtend n

/-- `(bits & x) > 0` where `bits : T`, `x : int`, with the usual arithmetic conversions (the operators of BitArray.h 40-290, Bit.h 38-117, BitFlag.h 38-150). -/
def andIntGt0 {n W : Nat} (bits : BitVec n) (x : BitVec W) : Bool :=
  let y := bits.setWidth (max n W) &&& x.signExtend (max n W)
  if n < W then decide (0 < y.toInt) else decide (y ≠ 0)

/-- `(bits & x) == 0` where `bits : T`, `x : int` (the operators of BitArray.h 40-290, Bit.h 38-117, BitFlag.h 38-150). -/
def andIntEq0 {n W : Nat} (bits : BitVec n) (x : BitVec W) : Bool :=
  decide (bits.setWidth (max n W) &&& x.signExtend (max n W) = 0)

/-! ### BitArray.h -/
namespace BitArray

/-- `isValidIndex(index, count)`, BitArray.h 266-269; `getMaxBits` (211-214) is the width of `T`. -/
def isValidIndex (n index count : Nat) : Bool := decide (index + count ≤ n)

/-- `CreateMask(count)`, BitArray.h 253-264. -/
def createMask (n : Nat) : Nat → BitVec n
  | 0 => 0
  | c + 1 => (createMask n c <<< 1) ||| 1#n

/-- `Set(bitIndex, value, bitCount)`, BitArray.h 64-82.  Returns the new bits and the result. -/
def setField (W : Nat) {n : Nat} (bits : BitVec n) (idx : Nat) (value : BitVec n) (cnt : Nat) :
    Res (BitVec n × Bool) :=
  if !isValidIndex n idx cnt then .ok (bits, false)
  else do
    let mask := createMask n cnt
    let value := value &&& mask
    let mask ← shlT W mask idx
    let value ← shlT W value idx
    .ok ((bits &&& ~~~mask) ||| value, true)

/-- `Get(bitIndex, bitCount)`, BitArray.h 90-104. -/
def getField (W : Nat) {n : Nat} (bits : BitVec n) (idx cnt : Nat) : Res (BitVec n) :=
  if !isValidIndex n idx cnt then .ok 0
  else do
    let mask ← shlT W (createMask n cnt) idx
    shrT W (bits &&& mask) idx

/-- `Set(bitIndex, bool)`, BitArray.h 111-126. -/
def setBool (W : Nat) {n : Nat} (bits : BitVec n) (idx : Nat) (v : Bool) : Res (BitVec n × Bool) :=
  if !isValidIndex n idx 1 then .ok (bits, false)
  else do
    let m ← shlOne W idx
    let mask := intToT n m
    let b := bits &&& ~~~mask
    .ok (if v then b ||| mask else b, true)

/-- `Set(bitIndex)`, BitArray.h 132-140. -/
def set (W : Nat) {n : Nat} (bits : BitVec n) (idx : Nat) : Res (BitVec n × Bool) :=
  if !isValidIndex n idx 1 then .ok (bits, false)
  else do
    let m ← shlOne W idx
    .ok (bits ||| intToT n m, true)

/-- `Reset(bitIndex)`, BitArray.h 155-163. -/
def reset (W : Nat) {n : Nat} (bits : BitVec n) (idx : Nat) : Res (BitVec n × Bool) :=
  if !isValidIndex n idx 1 then .ok (bits, false)
  else do
    let m ← shlOne W idx
    .ok (bits &&& intToT n (~~~m), true)

/-- `IsTrue(bitIndex)`, BitArray.h 176-181 (also `Get(bitIndex)` 146-149 and `operator[]` 220-223). -/
def isTrue (W : Nat) {n : Nat} (bits : BitVec n) (idx : Nat) : Res Bool :=
  if !isValidIndex n idx 1 then .ok false
  else do
    let m ← shlOne W idx
    .ok (andIntGt0 bits m)

/-- `IsFalse(bitIndex)`, BitArray.h 187-192. -/
def isFalse (W : Nat) {n : Nat} (bits : BitVec n) (idx : Nat) : Res Bool :=
  if !isValidIndex n idx 1 then .ok false
  else do
    let m ← shlOne W idx
    .ok (andIntEq0 bits m)

/-- `ShiftUp`, BitArray.h 236-239. -/
def shiftUp (W : Nat) {n : Nat} (bits : BitVec n) (k : Nat) : Res (BitVec n) := shlT W bits k

/-- `ShiftDown`, BitArray.h 245-248. -/
def shiftDown (W : Nat) {n : Nat} (bits : BitVec n) (k : Nat) : Res (BitVec n) := shrT W bits k

/-- Loop of the generic `Reverse`, BitArray.h 197-206: `c` iterations left, accumulator `rv`. -/
def reverseLoop {n : Nat} : Nat → BitVec n → BitVec n → BitVec n
  | 0, _, rv => rv
  | c + 1, bits, rv => reverseLoop c (bits >>> 1) ((rv <<< 1) ||| (bits &&& 1#n))

/-- Generic `Reverse`, BitArray.h 197-206. -/
def reverse {n : Nat} (bits : BitVec n) : BitVec n := reverseLoop n bits 0

/-- Specialisation `BitArray<uint8_t>::Reverse`, BitArray.h 275-281. -/
def reverse8 (b : BitVec 8) : BitVec 8 :=
  let b := (b &&& 0xF0#8) >>> 4 ||| (b &&& 0x0F#8) <<< 4
  let b := (b &&& 0xCC#8) >>> 2 ||| (b &&& 0x33#8) <<< 2
  (b &&& 0xAA#8) >>> 1 ||| (b &&& 0x55#8) <<< 1

/-- Specialisation `BitArray<uint16_t>::Reverse`, BitArray.h 283-290. -/
def reverse16 (b : BitVec 16) : BitVec 16 :=
  let b := (b &&& 0xFF00#16) >>> 8 ||| (b &&& 0x00FF#16) <<< 8
  let b := (b &&& 0xF0F0#16) >>> 4 ||| (b &&& 0x0F0F#16) <<< 4
  let b := (b &&& 0xCCCC#16) >>> 2 ||| (b &&& 0x3333#16) <<< 2
  (b &&& 0xAAAA#16) >>> 1 ||| (b &&& 0x5555#16) <<< 1

end BitArray

/-! ### Bit.h -/
namespace Bit

/-- `getMask<T>()`, Bit.h 115-120: `static const T mask = 1 << BitIndex`. -/
def getMask (W n i : Nat) : Res (BitVec n) := do
  let m ← shlOne W i
  .ok (intToT n m)

/-- `Set`, Bit.h 43-47. -/
def set (W : Nat) {n : Nat} (i : Nat) (t : BitVec n) : Res (BitVec n) := do
  let m ← getMask W n i
  .ok (t ||| m)

/-- `Set(target, value)`, Bit.h 54-67. -/
def setBool (W : Nat) {n : Nat} (i : Nat) (t : BitVec n) (v : Bool) : Res (BitVec n) := do
  let m ← getMask W n i
  let t := t &&& ~~~m
  .ok (if v then t ||| m else t)

/-- `Reset`, Bit.h 73-78. -/
def reset (W : Nat) {n : Nat} (i : Nat) (t : BitVec n) : Res (BitVec n) := do
  let m ← getMask W n i
  .ok (t &&& ~~~m)

/-- `Toggle`, Bit.h 84-88. -/
def toggle (W : Nat) {n : Nat} (i : Nat) (t : BitVec n) : Res (BitVec n) := do
  let m ← getMask W n i
  .ok (t ^^^ m)

/-- `IsTrue`, Bit.h 94-98: both operands have type `T` (unsigned), so `> 0` is "not zero". -/
def isTrue (W : Nat) {n : Nat} (i : Nat) (t : BitVec n) : Res Bool := do
  let m ← getMask W n i
  .ok (decide (t &&& m ≠ 0))

/-- `IsFalse`, Bit.h 104-108. -/
def isFalse (W : Nat) {n : Nat} (i : Nat) (t : BitVec n) : Res Bool := do
  let m ← getMask W n i
  .ok (decide (t &&& m = 0))

end Bit

/-! ### BitFlag.h -/
namespace BitFlag

/-- The guard `bitIndex > getMaxBits<T>()`, BitFlag.h 50, 64, 86, 100, 114, 128. -/
def rejects (n i : Nat) : Bool := decide (i > n)

/-- `BitToMask<T>`, BitFlag.h 149-153. -/
def bitToMask (W n i : Nat) : Res (BitVec n) := do
  let m ← shlOne W i
  .ok (intToT n m)

/-- `Set(target, bitIndex)`, BitFlag.h 47-53. -/
def set (W : Nat) {n : Nat} (t : BitVec n) (i : Nat) : Res (BitVec n) :=
  if rejects n i then .ok t
  else do
    let m ← bitToMask W n i
    .ok (t ||| m)

/-- `Set(target, bitIndex, value)`, BitFlag.h 61-76. -/
def setBool (W : Nat) {n : Nat} (t : BitVec n) (i : Nat) (v : Bool) : Res (BitVec n) :=
  if rejects n i then .ok t
  else do
    let m ← bitToMask W n i
    let t := t &&& ~~~m
    .ok (if v then t ||| m else t)

/-- `Reset(target, bitIndex)`, BitFlag.h 83-90. -/
def reset (W : Nat) {n : Nat} (t : BitVec n) (i : Nat) : Res (BitVec n) :=
  if rejects n i then .ok t
  else do
    let m ← bitToMask W n i
    .ok (t &&& ~~~m)

/-- `Toggle(target, bitIndex)`, BitFlag.h 97-103. -/
def toggle (W : Nat) {n : Nat} (t : BitVec n) (i : Nat) : Res (BitVec n) :=
  if rejects n i then .ok t
  else do
    let m ← bitToMask W n i
    .ok (t ^^^ m)

/-- `IsTrue(target, bitIndex)`, BitFlag.h 111-117. -/
def isTrue (W : Nat) {n : Nat} (t : BitVec n) (i : Nat) : Res Bool :=
  if rejects n i then .ok false
  else do
    let m ← bitToMask W n i
    .ok (decide (t &&& m ≠ 0))

/-- `IsFalse(target, bitIndex)`, BitFlag.h 125-131. -/
def isFalse (W : Nat) {n : Nat} (t : BitVec n) (i : Nat) : Res Bool :=
  if rejects n i then .ok false
  else do
    let m ← bitToMask W n i
    .ok (decide (t &&& m = 0))

end BitFlag
end Atl.Bits
