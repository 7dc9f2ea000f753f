import Verif.Model.LcdSerial
import Verif.Model.Motor

/-!
  A display (HD44780_DriverSerial3Wire.h) and motors (TB6612FNG_DriverSerial3Wire.h) on the outputs of the same shift registers, with one `BitArray` "shared among
  all driver classes" (TB6612FNG_DriverSerial3Wire.h 41, HD44780.md 17). `BaseT` is a class whose `Write(BitArrayT*)` calls `Serial3WireOutput::WriteReverse`
  (Serial3WireOutput.h 44-55); `Serial3WireOutput::Write` itself never returns (C38).
-/
namespace Atl.Shared
open Atl.Lcd Atl.LcdSerial Atl.Motor

/-- The bit indices (template parameters, HD44780_DriverSerial3Wire.h 49-51, TB6612FNG_DriverSerial3Wire.h 43-45): the display and the motors by number. -/
structure Wiring where
  lcd : Idx
  motor : Nat → Nat × Nat

/-- A call on one of the drivers (HD44780_DriverSerial3Wire.h 104-154, TB6612FNG_Controller.h 40-66). -/
inductive Op where
  | lcd (c : Call)
  | motor (m : Nat) (c : Cmd)
  deriving Repr, DecidableEq

/-- What happens: a word handed to `BaseT::Write`, or the PWM pin of a motor written (TB6612FNG_DriverSerial3Wire.h 81-103). -/
inductive Out (n : Nat) where
  | word (w : BitVec n)
  | pwm (m v : Nat)
  deriving Repr, DecidableEq

variable (W : Nat) {n : Nat} (x : Wiring)

/-- The events of a motor driver (TB6612FNG_DriverSerial3Wire.h 81-103), marked with the motor. -/
def ofMotor (m : Nat) : SerialEv n → Out n
  | .word w => .word w
  | .pwm v => .pwm m v

/-- `setDataRegister` of the motors (TB6612FNG_DriverSerial3Wire.h 56-66), one after the other. -/
def attachMotors (reg : BitVec n) : List Nat → Res (BitVec n × List (Out n))
  | [] => .ok (reg, [])
  | m :: ms => do
    let (r, a) ← Motor.attach W (x.motor m).1 (x.motor m).2 reg
    let (r, b) ← attachMotors r ms
    .ok (r, a.map (ofMotor m) ++ b)

/-- `setDataRegister` of the display, then of the motors (HD44780_DriverSerial3Wire.h 64-78). -/
def setup (ms : List Nat) (reg : BitVec n) : Res (BitVec n × List (Out n)) := do
  let (r, a) ← LcdSerial.attach W x.lcd reg
  let (r, b) ← attachMotors W x r ms
  .ok (r, a.map .word ++ b)

/-- One call (HD44780_DriverSerial3Wire.h 104-154, TB6612FNG_DriverSerial3Wire.h 81-95). -/
def step (reg : BitVec n) : Op → Res (BitVec n × List (Out n))
  | .lcd c => do let (r, ws) ← LcdSerial.call W x.lcd reg c; .ok (r, ws.map .word)
  | .motor m c => do
    let (r, es) ← sendSerial W (x.motor m).1 (x.motor m).2 (some reg) (args c).1 (args c).2.1 (args c).2.2
    .ok (r, es.map (ofMotor m))

/-- A sequence of calls (as `step`: HD44780_DriverSerial3Wire.h 104-154, TB6612FNG_DriverSerial3Wire.h 81-95). -/
def run (reg : BitVec n) : List Op → Res (BitVec n × List (Out n))
  | [] => .ok (reg, [])
  | op :: ops => do
    let (r, a) ← step W x reg op
    let (r, b) ← run r ops
    .ok (r, a ++ b)

/-- `setup` (HD44780_DriverSerial3Wire.h 64-78, TB6612FNG_DriverSerial3Wire.h 56-66) and a sequence of calls. -/
def program (ms : List Nat) (reg : BitVec n) (ops : List Op) : Res (BitVec n × List (Out n)) := do
  let (r, a) ← setup W x ms reg
  let (r, b) ← run W x r ops
  .ok (r, a ++ b)

/-- The words among the events, in order (the arguments of `BaseT::Write`, HD44780_DriverSerial3Wire.h 159-162, TB6612FNG_DriverSerial3Wire.h 100-103). -/
def words : List (Out n) → List (BitVec n)
  | [] => []
  | .word w :: l => w :: words l
  | .pwm _ _ :: l => words l

/-- The pins of the shift register chain for these words: `WriteReverse` of each (Serial3WireOutput.h 44-55). -/
def pins (W : Nat) {n : Nat} : List (BitVec n) → Res (List Serial3Wire.Ev)
  | [] => .ok []
  | w :: ws => do
    let a ← Serial3Wire.writeReverse W w
    let b ← pins W ws
    .ok (a ++ b)

end Atl.Shared
