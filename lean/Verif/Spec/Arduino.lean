import Mathlib.Data.List.Basic

/-
  The part of the Arduino core (AVR, 1.0.1 and later) the adapters call: pins, streams, the Wire library. Written from the public sources wiring_digital.c,
  wiring_analog.c, HardwareSerial.cpp and Wire.cpp; it is part of the trusted base like the device models.
-/
namespace Atl.Spec.Arduino

/-- A board pin: direction, output latch (on an input: the pull-up), the PWM duty if a timer is connected to it, and whether there is a timer for it. -/
structure Pin where
  output : Bool
  latch : Bool
  pwm : Option Nat
  hasTimer : Bool
  deriving DecidableEq, Repr

/-- All pins of the board. -/
abbrev Board := Nat → Pin

def Board.upd (b : Board) (p : Nat) (f : Pin → Pin) : Board := fun x => if x = p then f (b x) else b x

/-- `pinMode(p, OUTPUT)`: the latch is left as it is. -/
def pinModeOutput (p : Nat) (b : Board) : Board := b.upd p fun x => { x with output := true }
/-- `pinMode(p, INPUT)`: also switches the pull-up off. -/
def pinModeInput (p : Nat) (b : Board) : Board := b.upd p fun x => { x with output := false, latch := false }
/-- `digitalWrite`: disconnects the timer. -/
def digitalWrite (p : Nat) (v : Bool) (b : Board) : Board := b.upd p fun x => { x with latch := v, pwm := none }
/-- `digitalRead`: disconnects the timer; `ext` is the level others put on the pins that are inputs. -/
def digitalRead (ext : Nat → Bool) (p : Nat) (b : Board) : Bool × Board :=
  (if (b p).output then (b p).latch else ext p, b.upd p fun x => { x with pwm := none })
/-- `analogWrite`. -/
def analogWrite (p v : Nat) (b : Board) : Board :=
  let b := pinModeOutput p b
  if v = 0 then digitalWrite p false b
  else if v = 255 then digitalWrite p true b
  else if (b p).hasTimer then b.upd p fun x => { x with pwm := some v }
  else digitalWrite p (decide (128 ≤ v)) b

/-- What an outside observer sees a pin drive: nothing (input), or the share of time it is high, in 255ths. -/
def drives (x : Pin) : Option Nat :=
  if x.output then some (match x.pwm with | some d => d | none => if x.latch then 255 else 0) else none

/-- An I2C slave: absent, or accepting (acknowledging) that many bytes of a transmission. -/
inductive Slave where
  | absent
  | takes (n : Nat)
  deriving DecidableEq, Repr

/-- `Wire`: the bytes collected since `beginTransmission`. -/
structure Wire where
  tx : List Nat
  deriving DecidableEq, Repr

/-- `BUFFER_LENGTH` of Wire.h. -/
def bufferLength : Nat := 32

/-- `Wire.beginTransmission`. -/
def beginTransmission (_ : Wire) : Wire := ⟨[]⟩
/-- `Wire.write(byte)`: a full buffer takes nothing more. -/
def wireWrite (w : Wire) (b : Nat) : Wire := if w.tx.length < bufferLength then ⟨w.tx ++ [b]⟩ else w
/-- `Wire.write(data, n)`. -/
def wireWriteAll (w : Wire) (l : List Nat) : Wire := l.foldl wireWrite w
/-- `Wire.endTransmission`: 0, 2 (address not acknowledged) or 3 (a data byte not acknowledged), and what the slave took. -/
def endTransmission (s : Slave) (w : Wire) : Nat × List Nat :=
  match s with
  | .absent => (2, [])
  | .takes n => if w.tx.length ≤ n then (0, w.tx) else (3, w.tx.take n)

end Atl.Spec.Arduino
