import Verif.Model.Bits

/-
  Model of Serial3WireOutput.h 36-97. The pins are recorded as a trace of writes.
-/
namespace Atl.Serial3Wire
open Atl.Bits

/-- The three pins (template parameters, Serial3WireOutput.h 94-96). -/
inductive Pin where
  | data | clock | latch
  deriving Repr, DecidableEq

/-- One `DigitalOutputPin::Write(bool)` (Serial3WireOutput.h 78-95). -/
abbrev Ev := Pin × Bool

/-- `PulseSerialClock` (Serial3WireOutput.h 78-82). -/
def pulseClock : List Ev := [(.clock, true), (.clock, false)]

/-- `PulseLatchClock` (Serial3WireOutput.h 87-91). -/
def pulseLatch : List Ev := [(.latch, true), (.latch, false)]

/-- One pass of the loop body (49-51 and 66-68). -/
def body (W : Nat) {n : Nat} (bits : BitVec n) (i : Nat) : Res (List Ev) := do
  let b ← BitArray.isTrue W bits i
  .ok ((.data, b) :: pulseClock)

/-- The loop of `WriteReverse` (47-52): `k` passes remain, starting at bit `i`. -/
def reverseLoop (W : Nat) {n : Nat} (bits : BitVec n) : Nat → Nat → Res (List Ev)
  | 0, _ => .ok []
  | k + 1, i => do
    let a ← body W bits i
    let b ← reverseLoop W bits k (i + 1)
    .ok (a ++ b)

/-- `WriteReverse` (Serial3WireOutput.h 44-55). `getMaxBits()` is the width `n` (at most 64), so the `uint8_t` counter does not wrap. -/
def writeReverse (W : Nat) {n : Nat} (bits : BitVec n) : Res (List Ev) := do
  let a ← reverseLoop W bits n 0
  .ok (a ++ pulseLatch)

/-- `Write` (Serial3WireOutput.h 61-72) observed for at most `fuel` tests of the loop condition; `i` is a `uint8_t`. Returns the writes so far and
    whether the function has returned. -/
def writeLoop (W : Nat) {n : Nat} (bits : BitVec n) : Nat → Nat → Res (List Ev × Bool)
  | 0, _ => .ok ([], false)
  | fuel + 1, i =>
    if 0 ≤ i then do
      let a ← body W bits i
      let (b, fin) ← writeLoop W bits fuel (toU 8 ((i : Int) - 1))
      .ok (a ++ b, fin)
    else .ok (pulseLatch, true)

/-- `Write`: `uint8_t i = getMaxBits() - 1` (Serial3WireOutput.h 61-74). -/
def write (W : Nat) {n : Nat} (bits : BitVec n) (fuel : Nat) : Res (List Ev × Bool) := writeLoop W bits fuel (toU 8 ((n : Int) - 1))

end Atl.Serial3Wire
