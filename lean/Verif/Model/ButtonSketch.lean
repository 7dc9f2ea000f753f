import Verif.Model.Arduino
import Verif.Model.PushButton
import Verif.Model.Misc

/-
  Model of the example programs ATL_Input/examples/PushButton (PushButton.ino) and ATL_IO/examples/DigitalInput, Blink (DigitalInput.ino, Blink.ino; Source/Code/Arduino
  Libraries). Pins and timeouts are parameters.
-/
namespace Atl.ButtonSketch
open Atl.Spec.Arduino

/-- The level at an input pin with a switch to ground: 0 while the switch is closed, else 1 if the pull-up is on, else whatever `float` is (the circuit: PushButton.ino 12-18). -/
def switchLevel (b : Board) (contact float : Bool) : Nat → Bool := fun p => if contact then false else if (b p).latch then true else float

/-- The constants of PushButton.ino (7-20): address of `button`, its pin, the pin of `led`, the timeouts, capacity of the delay table. -/
structure Cfg where
  address : Nat
  inPin : Nat
  ledPin : Nat
  debounce : Nat
  hold : Nat
  capacity : Nat
  deriving DecidableEq, Repr

/-- The objects of PushButton.ino 7-20 and the pins. -/
structure State where
  ticks : Nat
  button : PushButton.State
  board : Board

/-- The constructors (PushButton.ino 7, 18, 20; DigitalInputPin.h 38-41, DigitalOutputPin.h 38-41), then `setup` (22-27). -/
def State.init (c : Cfg) (now : Nat) (b : Board) : State :=
  ⟨Time.create now, PushButton.State.init, Arduino.enablePullup c.inPin true (Arduino.outputPin c.ledPin (Arduino.inputPin c.inPin b))⟩

/-- The switch statement of `loop` (PushButton.ino 38-51). -/
def showState (ext : Nat → Bool) (led : Nat) (b : Board) : PushButton.BState → Board
  | .opened => Arduino.write led false b
  | .closed => Arduino.write led true b
  | .hold => Arduino.toggle ext led b
  | _ => b

/-- `loop` (PushButton.ino 29-52). `digitalRead` on the input pin has no effect on the board but on PWM (there is none), so the level is read in advance. -/
def State.loop (c : Cfg) (s : State) (now : Nat) (contact float : Bool) : Res State := do
  let (delta, ticks) := Time.update s.ticks now
  let button := { s.button with delays := s.button.delays.update delta }
  let ext := switchLevel s.board contact float
  let (level, _) := Arduino.readInput ext c.inPin s.board
  let (_, button) ← button.scan c.capacity (Misc.getId c.address) c.debounce c.hold true level
  .ok ⟨ticks, button, showState ext c.ledPin s.board button.cur⟩

/-- The program: the pins after each round of `loop` (PushButton.ino 29-52). -/
def State.run (c : Cfg) (s : State) : List (Nat × Bool × Bool) → Res (List Board)
  | [] => .ok []
  | (now, contact, float) :: l => do
    let s1 ← s.loop c now contact float
    let bs ← s1.run c l
    .ok (s1.board :: bs)

/-! ### DigitalInput.ino -/

/-- `_value` of `input4` and the pins (DigitalInput.ino 5-8, DigitalInput.h 66). -/
structure DState where
  value : Bool
  board : Board

/-- The constructors (DigitalInput.ino 5, 8; DigitalInput.h 35). -/
def DState.init (inPin ledPin : Nat) (b : Board) : DState := ⟨false, Arduino.inputPin inPin (Arduino.outputPin ledPin b)⟩

/-- `loop` (DigitalInput.ino 15-25) without the delay; `ext` are the levels at the input pins. -/
def DState.loop (inPin ledPin : Nat) (s : DState) (ext : Nat → Bool) : DState :=
  let (level, board) := Arduino.readInput ext inPin s.board
  let (changed, value) := DigitalInput.read s.value level
  ⟨value, if changed then Arduino.write ledPin value board else board⟩

/-- The program: the pins after each round (`loop`, DigitalInput.ino 15-25). -/
def DState.run (inPin ledPin : Nat) (s : DState) : List (Nat → Bool) → List Board
  | [] => []
  | ext :: l => (s.loop inPin ledPin ext).board :: (s.loop inPin ledPin ext).run inPin ledPin l

/-! ### Blink.ino -/

/-- `loop` (Blink.ino 12-18), repeated: the pins after each round. -/
def blink (led : Nat) (b : Board) : List (Nat → Bool) → List Board
  | [] => []
  | ext :: l => Arduino.toggle ext led b :: blink led (Arduino.toggle ext led b) l

end Atl.ButtonSketch
