import Verif.Model.Basic
import Verif.Spec.Arduino

/-
  Model of the adapters in Arduino/: DigitalOutputPin.h, DigitalInputPin.h, AnalogOutputPin.h, StreamInputStream.h, StreamOutputStream.h,
  SerialI2COutput.h, Delay_Arduino.h, over the Arduino core of Spec/Arduino.lean.
-/
namespace Atl.Arduino
open Atl.Spec.Arduino

/-! ### Pins -/

/-- Constructor (DigitalOutputPin.h 38-41). -/
def outputPin (p : Nat) (b : Board) : Board := pinModeOutput p b
/-- Constructor with a value (DigitalOutputPin.h 46-50): the board after each call. -/
def outputPinWith (p : Nat) (v : Bool) (b : Board) : List Board :=
  let b1 := pinModeOutput p b
  [b1, digitalWrite p v b1]
/-- `Write` (DigitalOutputPin.h 55-58). -/
def write (p : Nat) (v : Bool) (b : Board) : Board := digitalWrite p v b
/-- `getValue` (DigitalOutputPin.h 64-67). -/
def getValue (ext : Nat → Bool) (p : Nat) (b : Board) : Bool × Board := digitalRead ext p b
/-- `Toggle` (DigitalOutputPin.h 71-74). -/
def toggle (ext : Nat → Bool) (p : Nat) (b : Board) : Board :=
  let (v, b) := getValue ext p b
  write p (!v) b

/-- Constructor (DigitalInputPin.h 38-41). -/
def inputPin (p : Nat) (b : Board) : Board := pinModeInput p b
/-- `Read` (DigitalInputPin.h 46-49). -/
def readInput (ext : Nat → Bool) (p : Nat) (b : Board) : Bool × Board := digitalRead ext p b
/-- `EnableInternalPullup` (DigitalInputPin.h 54-57). -/
def enablePullup (p : Nat) (enable : Bool) (b : Board) : Board := digitalWrite p enable b

/-- `AnalogOutputPin::Write` (AnalogOutputPin.h 41-44), the value a `uint8_t`. -/
def writeAnalog (p v : Nat) (b : Board) : Board := analogWrite p v b

/-- What a program does with output pins; the results of `getValue` are collected (the members called: DigitalOutputPin.h 55-74). -/
inductive PinOp where
  | write (p : Nat) (v : Bool)
  | toggle (p : Nat)
  | getValue (p : Nat)
  deriving DecidableEq, Repr

/-- The members called: DigitalOutputPin.h 55-74. -/
def step (ext : Nat → Bool) (b : Board) : PinOp → Board × List Bool
  | .write p v => (write p v b, [])
  | .toggle p => (toggle ext p b, [])
  | .getValue p => let r := getValue ext p b; (r.2, [r.1])

/-- A history; `ext` at each time (the members called: DigitalOutputPin.h 55-74). -/
def run : List ((Nat → Bool) × PinOp) → Board → Board × List Bool
  | [], b => (b, [])
  | (ext, o) :: l, b =>
    let (b1, r1) := step ext b o
    let (b2, r2) := run l b1
    (b2, r1 ++ r2)

/-! ### Streams. `none` is the NULL pointer, `some l` an Arduino stream that holds the bytes `l`. -/

/-- `read()` of an Arduino stream (called by Arduino/StreamInputStream.h 40-97). -/
def coreRead : List Nat → Int × List Nat
  | [] => (-1, [])
  | b :: l => ((b : Int), l)

/-- `StreamInputStream::getLength` (StreamInputStream.h 63-68): `available()` is an `int`, the result a `uint16_t`. -/
def getLength : Option (List Nat) → Nat
  | none => 0
  | some l => toU 16 (toS 16 l.length)
/-- `StreamInputStream::Read` (StreamInputStream.h 84-89). -/
def read : Option (List Nat) → Int × Option (List Nat)
  | none => (-1, none)
  | some l => ((coreRead l).1, some (coreRead l).2)
/-- The loop of `StreamInputStream::Clear` (StreamInputStream.h 77); before each poll the bytes of one list arrive; `none`: not returned. -/
def clearLoop : List (List Nat) → List Nat → Option (List Nat)
  | [], _ => none
  | a :: as, l => if (coreRead (l ++ a)).1 ≠ -1 then clearLoop as (coreRead (l ++ a)).2 else some (coreRead (l ++ a)).2
/-- `StreamInputStream::Clear` (StreamInputStream.h 73-78). -/
def clear (as : List (List Nat)) : Option (List Nat) → Option (Option (List Nat))
  | none => some none
  | some l => (clearLoop as l).map some

/-- The Arduino stream behind a StreamOutputStream: bytes waiting and bytes that are out (Arduino/StreamOutputStream.h 35-92). -/
structure OutCore where
  waiting : List Nat
  out : List Nat
  deriving DecidableEq, Repr

/-- `StreamOutputStream::Write` (StreamOutputStream.h 80-85). -/
def writeStream (v : Nat) : Option OutCore → Option OutCore
  | none => none
  | some s => some { s with waiting := s.waiting ++ [v] }
/-- `StreamOutputStream::Flush` (StreamOutputStream.h 70-75): `flush()` waits until everything is out (since Arduino 1.0). -/
def flush : Option OutCore → Option OutCore
  | none => none
  | some s => some { waiting := [], out := s.out ++ s.waiting }
/-- `StreamOutputStream::getLength` (StreamOutputStream.h 63-66). -/
def outLength (_ : Option OutCore) : Nat := 0

/-! ### I2C -/

/-- `SerialI2COutput::Write(data)` (SerialI2COutput.h 33-38): the result and what the slave took. -/
def i2cWrite (s : Slave) (w : Wire) (v : Nat) : Bool × List Nat :=
  let w := wireWrite (beginTransmission w) v
  let (r, got) := endTransmission s w
  (decide (r = 0), got)
/-- `SerialI2COutput::Write(data, length)` (SerialI2COutput.h 40-45) with an array of at least `length` bytes. -/
def i2cWriteAll (s : Slave) (w : Wire) (data : List Nat) (length : Nat) : Bool × List Nat :=
  let w := wireWriteAll (beginTransmission w) (data.take length)
  let (r, got) := endTransmission s w
  (decide (r = 0), got)

/-! ### Delay_Arduino.h -/

/-- `Delay<Milliseconds>::Wait` (Delay_Arduino.h 40-43): the milliseconds `delay(unsigned long)` waits. -/
def waitMilliseconds (timeout : Nat) : Nat := toU 32 timeout
/-- `Delay<Microseconds>::Wait` (Delay_Arduino.h 55-58): the argument of `delayMicroseconds(unsigned int)`, 16 bits. -/
def waitMicroseconds (timeout : Nat) : Nat := toU 16 (toU 32 timeout)

end Atl.Arduino
