import Verif.Model.MotorBoard

/-
  Motor commands given by main code and by interrupt handlers: TB6612FNG_Controller over TB6612FNG_Driver on an Arduino board (`Model/MotorBoard.lean`), where handlers that
  give commands of their own run between two pin writes of a command of main code. The pin functions of the Arduino core count as one step each (`digitalWrite` switches
  the interrupts off; the steps inside `analogWrite` are not divided), and a handler is not interrupted itself.
-/
namespace Atl.MotorInterrupt
open Atl.Motor Atl.MotorBoard Atl.Spec.Arduino

/-- The board after commands given by handlers, one after the other (TB6612FNG_Controller.h 40-66). -/
def handlers (ps : Nat → Pins) (l : List (Nat × Cmd)) (b : Board) : Board := after b (history ps l b)

/-- `Send` (TB6612FNG_Driver.h 46-59) in main code: the commands `h1` are given by handlers behind the write of IN1 (48), the commands `h2` behind that of IN2 (49). -/
def send (ps : Nat → Pins) (p : Pins) (in1 in2 : Bool) (pwm : Nat) (h1 h2 : List (Nat × Cmd)) (b : Board) : Board :=
  let b1 := handlers ps h1 (Arduino.write p.in1 in1 b)
  let b2 := handlers ps h2 (Arduino.write p.in2 in2 b1)
  if pwm > 0 then Arduino.writeAnalog p.pwm pwm b2 else Arduino.writeBool p.pwm true b2

/-- What happens: a handler gives a command while main code gives none, or main code gives a command and handlers give theirs inside it (TB6612FNG_Controller.h 40-66). -/
inductive Ev where
  | handler (m : Nat) (c : Cmd)
  | main (m : Nat) (c : Cmd) (h1 h2 : List (Nat × Cmd))
  deriving Repr

/-- One event (TB6612FNG_Controller.h 40-66). -/
def step (ps : Nat → Pins) (b : Board) : Ev → Board
  | .handler m c => handlers ps [(m, c)] b
  | .main m c h1 h2 => send ps (ps m) (args c).1 (args c).2.1 (args c).2.2 h1 h2 b

/-- A history (TB6612FNG_Controller.h 40-66). -/
def run (ps : Nat → Pins) (es : List Ev) (b : Board) : Board := es.foldl (step ps) b

end Atl.MotorInterrupt
