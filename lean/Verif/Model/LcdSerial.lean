import Verif.Model.Lcd
import Verif.Model.Serial3Wire

/-
  Model of HD44780_DriverSerial3Wire.h: the shared register and the words handed to `BaseT::Write`.
-/
namespace Atl.LcdSerial
open Atl.Bits Atl.Lcd

/-- Template parameters (HD44780_DriverSerial3Wire.h 49-51): bit indices. -/
structure Idx where
  rs : Nat
  e : Nat
  d4 : Nat
  d5 : Nat
  d6 : Nat
  d7 : Nat
  deriving Repr, DecidableEq

variable (W : Nat) {n : Nat} (x : Idx)

/-- `_dataReg->Set(index, value)` (BitArray.h 111-126), the flag ignored. -/
def put (reg : BitVec n) (i : Nat) (v : Bool) : Res (BitVec n) := do let (r, _) ← BitArray.setBool W reg i v; .ok r

/-- `setDataRegister` (HD44780_DriverSerial3Wire.h 64-78) with a register. -/
def attach (reg : BitVec n) : Res (BitVec n × List (BitVec n)) := do
  let r ← put W reg x.rs false
  let r ← put W r x.e true
  let r ← put W r x.d4 false
  let r ← put W r x.d5 false
  let r ← put W r x.d6 false
  let r ← put W r x.d7 false
  .ok (r, [r])

/-- `PulseEnable` (HD44780_DriverSerial3Wire.h 177-186). -/
def pulseEnable (reg : BitVec n) : Res (BitVec n × List (BitVec n)) := do
  let a ← put W reg x.e false
  let b ← put W a x.e true
  .ok (b, [a, b])

/-- `Write4` (HD44780_DriverSerial3Wire.h 143-154) with a register. -/
def write4 (reg : BitVec n) (data : Nat) : Res (BitVec n × List (BitVec n)) := do
  let r ← put W reg x.d4 (data &&& 1 != 0)
  let r ← put W r x.d5 (data &&& 2 != 0)
  let r ← put W r x.d6 (data &&& 4 != 0)
  let r ← put W r x.d7 (data &&& 8 != 0)
  let (b, l) ← pulseEnable W x r
  .ok (b, r :: l)

/-- `Write8` (HD44780_DriverSerial3Wire.h 132-136). -/
def write8 (reg : BitVec n) (data : Nat) : Res (BitVec n × List (BitVec n)) := do
  let (a, l) ← write4 W x reg (data >>> 4)
  let (b, m) ← write4 W x a data
  .ok (b, l ++ m)

/-- A call: `Write4`, `WriteCommand` (104-110), `WriteData` (117-123). RS is only changed in memory; the next word carries it. -/
def call (reg : BitVec n) : Call → Res (BitVec n × List (BitVec n))
  | .write4 d => write4 W x reg d
  | .command b => do let r ← put W reg x.rs false; write8 W x r b
  | .data b => do let r ← put W reg x.rs true; write8 W x r b

/-- A sequence of calls; without a register (NULL, constructor 57-59) every call returns at once (93, 106, 119, 145). -/
def calls (reg : BitVec n) : List Call → Res (BitVec n × List (BitVec n))
  | [] => .ok (reg, [])
  | c :: cs => do
    let (a, l) ← call W x reg c
    let (b, m) ← calls a cs
    .ok (b, l ++ m)

/-- `setDataRegister` over the real `Serial3WireOutput::Write` (WriteDataRegister, 159-162): observed for `fuel` loop tests, whether it has returned. -/
def attachReal (reg : BitVec n) (fuel : Nat) : Res Bool := do
  let (r, _) ← attach W x reg
  let (_, fin) ← Serial3Wire.write W r fuel
  .ok fin

end Atl.LcdSerial
