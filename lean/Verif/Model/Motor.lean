import Verif.Model.Bits

/-
  Model of TB6612FNG_Controller.h, TB6612FNG_Driver.h and TB6612FNG_DriverSerial3Wire.h.
-/
namespace Atl.Motor
open Atl.Bits

/-- The commands of TB6612FNG_Controller.h. -/
inductive Cmd where
  | stop
  | brake
  | clockwise (speed : Nat)
  | counterClockwise (speed : Nat)
  deriving Repr, DecidableEq

/-- `Stop`, `Break`, `Clockwise`, `CounterClockwise` (TB6612FNG_Controller.h 40-66): the arguments of `BaseT::Send`. -/
def args : Cmd → Bool × Bool × Nat
  | .stop => (false, false, 0)
  | .brake => (true, true, 0)
  | .clockwise speed => (true, false, speed)
  | .counterClockwise speed => (false, true, speed)

/-- A write to a board pin: `digitalWrite` (0/1) or `analogWrite` (0..255), by board pin number. -/
structure PinWrite where
  pin : Nat
  value : Nat
  deriving Repr, DecidableEq

/-- The value written to the PWM pin (TB6612FNG_Driver.h 51-58, TB6612FNG_DriverSerial3Wire.h 87-94): `_pwm.Write(true)` converts `true` to 1
    (AnalogOutputPin.h 41-44 takes a `uint8_t`). -/
def duty (pwm : Nat) : Nat := if pwm > 0 then pwm else 1

/-- Template parameters of TB6612FNG_Driver: board pins (TB6612FNG_Driver.h 37-38). -/
structure Pins where
  in1 : Nat
  in2 : Nat
  pwm : Nat
  deriving Repr, DecidableEq

/-- `Send` (TB6612FNG_Driver.h 46-59). -/
def send (p : Pins) (in1 in2 : Bool) (pwm : Nat) : List PinWrite := [⟨p.in1, in1.toNat⟩, ⟨p.in2, in2.toNat⟩, ⟨p.pwm, duty pwm⟩]

/-- A controller command over the direct driver (TB6612FNG_Controller.h 40-66). -/
def command (p : Pins) (c : Cmd) : List PinWrite := let (a, b, s) := args c; send p a b s

/-- What the serial driver does: hand the shared register to `BaseT::Write`, or write the PWM pin (TB6612FNG_DriverSerial3Wire.h 81-103). -/
inductive SerialEv (n : Nat) where
  | word (w : BitVec n)
  | pwm (v : Nat)
  deriving Repr, DecidableEq

/-- `setDataRegister` (TB6612FNG_DriverSerial3Wire.h 56-66) with a register (not NULL): the new register and the words written. -/
def attach (W : Nat) {n : Nat} (i1 i2 : Nat) (reg : BitVec n) : Res (BitVec n × List (SerialEv n)) := do
  let (a, _) ← BitArray.setBool W reg i1 false
  let (b, _) ← BitArray.setBool W a i2 false
  .ok (b, [.word b])

/-- `Send` (TB6612FNG_DriverSerial3Wire.h 81-95); `none` is the NULL pointer of the constructor (49-51), which is dereferenced. -/
def sendSerial (W : Nat) {n : Nat} (i1 i2 : Nat) (reg : Option (BitVec n)) (in1 in2 : Bool) (pwm : Nat) : Res (BitVec n × List (SerialEv n)) :=
  match reg with
  | none => .ub
  | some reg => do
    let (a, _) ← BitArray.setBool W reg i1 in1
    let (b, _) ← BitArray.setBool W a i2 in2
    .ok (b, [.word b, .pwm (duty pwm)])

end Atl.Motor
