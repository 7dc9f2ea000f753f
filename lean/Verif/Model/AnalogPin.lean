import Verif.Model.Arduino

/-
  Model of `AnalogOutputPin` (AnalogOutputPin.h 34-45) used "as a digital pin", as docs/General Purpose IO.md, Analog IO says it can be: the members it inherits from
  `DigitalOutputPin` and its own `Write`, which hides the inherited one.
-/
namespace Atl.Arduino
open Atl.Spec.Arduino

/-- `pin.Write(value)` with a `bool` on an AnalogOutputPin: the only `Write` found by name lookup is `Write(uint8_t)` (AnalogOutputPin.h 41-44); the `bool`
    is converted to 0 or 1. -/
def writeBool (p : Nat) (v : Bool) (b : Board) : Board := writeAnalog p (if v then 1 else 0) b

/-- What a program does with AnalogOutputPins (the members called: AnalogOutputPin.h 36-44, DigitalOutputPin.h 38-74). -/
inductive AnalogOp where
  /-- `pin.Write(v)` with a `bool`. -/
  | writeBool (p : Nat) (v : Bool)
  /-- `pin.Write(v)` with a `uint8_t`. -/
  | writeDuty (p v : Nat)
  /-- `pin.DigitalOutputPin<p>::Write(v)`, or `Write` through a reference to the base class (DigitalOutputPin.h 55-58). -/
  | writeBase (p : Nat) (v : Bool)
  /-- `pin.Toggle()` (DigitalOutputPin.h 71-74; calls the `Write` of the base class). -/
  | toggle (p : Nat)
  /-- `pin.getValue()` (DigitalOutputPin.h 64-67). -/
  | getValue (p : Nat)
  deriving DecidableEq, Repr

/-- One call; `ext` is the level others put on the pins that are inputs (the members called: AnalogOutputPin.h 36-44, DigitalOutputPin.h 38-74). -/
def analogStep (ext : Nat → Bool) (b : Board) : AnalogOp → Board × List Bool
  | .writeBool p v => (writeBool p v b, [])
  | .writeDuty p v => (writeAnalog p v b, [])
  | .writeBase p v => (write p v b, [])
  | .toggle p => (toggle ext p b, [])
  | .getValue p => let r := getValue ext p b; (r.2, [r.1])

/-- A history; the results of `getValue` are collected (the members called: AnalogOutputPin.h 36-44, DigitalOutputPin.h 38-74). -/
def analogRun : List ((Nat → Bool) × AnalogOp) → Board → Board × List Bool
  | [], b => (b, [])
  | (ext, o) :: l, b =>
    let (b1, r1) := analogStep ext b o
    let (b2, r2) := analogRun l b1
    (b2, r1 ++ r2)

end Atl.Arduino
