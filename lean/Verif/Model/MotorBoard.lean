import Verif.Model.Motor
import Verif.Model.AnalogPin

/-
  TB6612FNG_Controller over TB6612FNG_Driver over the pins of an Arduino board, call by call: the car of docs/Principles and Practices.md 37-38.
-/
namespace Atl.MotorBoard
open Atl.Motor Atl.Spec.Arduino

/-- The constructor of the driver: its three pins in the order of their declaration (TB6612FNG_Driver.h 62-64, Arduino/DigitalOutputPin.h 38-41); the board after each. -/
def construct (p : Pins) (b : Board) : List Board :=
  let b1 := Arduino.outputPin p.in1 b
  let b2 := Arduino.outputPin p.in2 b1
  [b1, b2, Arduino.outputPin p.pwm b2]

/-- `Send` (TB6612FNG_Driver.h 46-59): the board after each of the three writes. `_pwm.Write(true)` is the `Write(uint8_t)` of AnalogOutputPin (Arduino/AnalogOutputPin.h 41-44). -/
def send (p : Pins) (in1 in2 : Bool) (pwm : Nat) (b : Board) : List Board :=
  let b1 := Arduino.write p.in1 in1 b
  let b2 := Arduino.write p.in2 in2 b1
  [b1, b2, if pwm > 0 then Arduino.writeAnalog p.pwm pwm b2 else Arduino.writeBool p.pwm true b2]

/-- A command of the controller (TB6612FNG_Controller.h 40-66). -/
def command (p : Pins) (c : Cmd) (b : Board) : List Board := send p (args c).1 (args c).2.1 (args c).2.2 b

/-- The board after a call that went through these boards (TB6612FNG_Driver.h 46-59). -/
def after (b : Board) (l : List Board) : Board := l.getLast?.getD b

/-- The constructors of several drivers, one after the other (TB6612FNG_Driver.h 62-64): every board on the way. -/
def setup (ps : Nat → Pins) : List Nat → Board → List Board
  | [], _ => []
  | m :: ms, b => construct (ps m) b ++ setup ps ms (after b (construct (ps m) b))

/-- A history of commands to motors (TB6612FNG_Controller.h 40-66): every board on the way. -/
def history (ps : Nat → Pins) : List (Nat × Cmd) → Board → List Board
  | [], _ => []
  | (m, c) :: l, b => command (ps m) c b ++ history ps l (after b (command (ps m) c b))

end Atl.MotorBoard
