import Verif.Model.Array
import Verif.Model.BitsSigned
/-
  The examples of the ATL library itself as programs (Source/Code/Arduino Libraries/ATL/examples): Array.ino, Bit.ino, BitArray.ino and CollectionRef.ino. Sizes,
  positions and values are parameters; the sketches are the instances with their own values. `loop` is empty in all of them, and so is _Intro.ino.
-/
namespace Atl.CoreSketch

/-- `setup` of Array.ino (12-24): `arr[i] = v; arr.SetAt(j, arr[i]); arr[k] = arr[k];`. -/
def arraySetup (s : FixedArray.FA Int) (i : Int) (v : Int) (j k : Int) : Res (FixedArray.FA Int) := do
  let s ← FixedArray.writeIdx s i v
  let x ← FixedArray.readIdx s i
  let s ← FixedArray.setAt s j x
  let y ← FixedArray.readIdx s k
  FixedArray.writeIdx s k y

/-- `setup` of Bit.ino (16-29) with bit `i`: an `int` and an `unsigned char`, from `x` and `y` on. -/
def bitSetup (W i : Nat) (x : BitVec W) (y : BitVec 8) : Res (BitVec W × BitVec 8) := do
  let x ← Bits.Signed.Bit.set W i x
  let y ← Bits.Bit.set W i y
  let x ← Bits.Signed.BitFlag.setBool W x i false
  let y ← Bits.BitFlag.setBool W y i false
  .ok (x, y)

/-- `setup` of BitArray.ino (14-38), an array of 16 bits: `Set(i)`, `IsTrue(i)`, `ResetAll()`, `Set(p, v, c)`, `Get(p, c)`, `Reverse()`, `ShiftDown(k)`. On AVR
    `unsigned short` is not `uint16_t` (which is `unsigned int`), so the generic `Reverse` runs. The results of `IsTrue` and `Get` and the final content. -/
def bitArraySetup (W : Nat) (bits : BitVec 16) (i p : Nat) (v : BitVec 16) (c k : Nat) : Res (Bool × BitVec 16 × BitVec 16) := do
  let (bits, _) ← Bits.BitArray.set W bits i
  let b ← Bits.BitArray.isTrue W bits i
  let bits : BitVec 16 := 0
  let (bits, _) ← Bits.BitArray.setField W bits p v c
  let nibble ← Bits.BitArray.getField W bits p c
  let bits ← Bits.BitArray.shiftDown W (Bits.BitArray.reverse bits) k
  .ok (b, nibble, bits)

/-- The calls of `Add` (CollectionRef.ino 24-29). -/
def addAll (c : Collection.Coll Int) : List Int → Res (Collection.Coll Int)
  | [] => .ok c
  | v :: vs => do
    let c ← Collection.add c v
    addAll c vs

/-- `for (unsigned char i = 0; i < c.getCount(); i++) value = c[i];` (CollectionRef.ino 32-35) from `i` on: the values read; `none` while the loop has not ended
    after `fuel` tests. -/
def readLoop (c : Collection.Coll Int) : (fuel : Nat) → (i : Nat) → Option (Res (List Int))
  | 0, _ => none
  | fuel + 1, i =>
    if i < Collection.getCount c then
      match Collection.getAt 0 c i, readLoop c fuel (toU 8 (i + 1)) with
      | .ub, _ => some .ub
      | .ok _, none => none
      | .ok _, some .ub => some .ub
      | .ok v, some (.ok vs) => some (.ok (v :: vs))
    else some (.ok [])

/-- `setup` of CollectionRef.ino (20-36), with at most `fuel` tests of the loop condition. -/
def collectionSetup (arr : FixedArray.FA Int) (vs : List Int) (fuel : Nat) : Option (Res (List Int)) :=
  match addAll (Collection.init arr) vs with
  | .ub => some .ub
  | .ok c => readLoop c fuel 0

end Atl.CoreSketch
