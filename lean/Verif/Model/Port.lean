import Verif.Model.Usart

/-
  Model of AVR/Port.h, DigitalInputPin.h, DigitalOutputPin.h, Interrupt.h and Button.h (Source/Code/ArduinoTemplateLibrary/AVR) over the data memory
  of an ATmega644/1284.
-/
namespace Atl.Port
open Atl.Usart (Mem setBit clearBit)

/-- `PortRegIn`, `PortRegDir`, `PortRegOut` (Port.h 134-147); `_SFR_IO8(x)` is data memory address `x + 0x20`. -/
def aPin (port : Nat) : Nat := 0x20 + port * 3
/-- `PortRegDir` (AVR/Port.h 139-142). -/
def aDdr (port : Nat) : Nat := 0x20 + (port * 3 + 1)
/-- `PortRegOut` (AVR/Port.h 144-147). -/
def aPort (port : Nat) : Nat := 0x20 + (port * 3 + 2)

/-- `PinToMask` (Port.h 149-152). -/
def mask (pin : Nat) : BitVec 8 := 1#8 <<< pin

/-- `EnablePullup` (Port.h 84-95); `Input` is 0. -/
def enablePullup (port pin : Nat) (_enable : Bool) (m : Mem) : Mem × Bool :=
  if m (aDdr port) &&& mask pin = 0#8 then (m.put (aPort port) (m (aPort port) ||| mask pin), true) else (m, false)

/-- `SetDirection(pin, io)` (Port.h 97-103); true is `Output`. -/
def setDirection (port pin : Nat) (output : Bool) (m : Mem) : Mem :=
  if output then m.put (aDdr port) (m (aDdr port) ||| mask pin) else m.put (aDdr port) (m (aDdr port) &&& ~~~mask pin)

/-- A `PinIO` in an expression (AVR/Port.h 54-58). -/
def io (b : Bool) : BitVec 8 := if b then 1#8 else 0#8

/-- `SetDirection(io7, .., io0)` (Port.h 105-108); the shifts are of `int`, the result is cut to eight bits. -/
def setDirections (port : Nat) (i7 i6 i5 i4 i3 i2 i1 i0 : Bool) (m : Mem) : Mem :=
  m.put (aDdr port) (io i7 <<< 7 ||| io i6 <<< 6 ||| io i5 <<< 5 ||| io i4 <<< 4 ||| io i3 <<< 3 ||| io i2 <<< 2 ||| io i1 <<< 1 ||| io i0)

/-- `SetDirection(allPinsIO)` (Port.h 110-113). -/
def setDirectionAll (port : Nat) (v : BitVec 8) (m : Mem) : Mem := m.put (aDdr port) v

/-- `Write` (Port.h 115-121). -/
def write (port pin : Nat) (value : Bool) (m : Mem) : Mem :=
  if value then m.put (aPort port) (m (aPort port) ||| mask pin) else m.put (aPort port) (m (aPort port) &&& ~~~mask pin)

/-- `Read` (Port.h 123-126). -/
def read (port pin : Nat) (m : Mem) : Bool := decide (0 < (m (aPin port) &&& mask pin).toNat)

/-- Constructor of DigitalInputPin (DigitalInputPin.h 41-44). -/
def inputPin (port pin : Nat) (m : Mem) : Mem := setDirection port pin false m
/-- `EnableInternalPullup` (DigitalInputPin.h 57-60). -/
def enableInternalPullup (port pin : Nat) (enable : Bool) (m : Mem) : Mem := (enablePullup port pin enable m).1
/-- Constructor of DigitalOutputPin with a value (DigitalOutputPin.h 51-55): the memory after each store. -/
def outputPin (port pin : Nat) (v : Bool) (m : Mem) : List Mem :=
  let m1 := setDirection port pin true m
  [m1, write port pin v m1]

/-! ### Interrupt.h -/

/-- `PCICR` (iom644.h, iom1284p.h). -/
def aPCICR : Nat := 0x68

/-- `EnablePinChange` (Interrupt.h 60-80). -/
def enablePinChange (port : Nat) (flags : BitVec 8) (m : Mem) : Mem :=
  if flags = 0#8 then m.put aPCICR (m aPCICR &&& ~~~(1#8 <<< port))
  else
    let m := m.put aPCICR (m aPCICR ||| (1#8 <<< port))
    if port < 3 then m.put (0x6B + port) flags else m

/-- `EnableCounterOverflow`, `EnableTimerCompareA`, `EnableTimerCompareB` (Interrupt.h 84-127) with `bits` = 1, 2, 4. -/
def enableTimer (bits : BitVec 8) (idx : Nat) (enable : Bool) (m : Mem) : Mem :=
  if enable then m.put (0x6E + idx) (m (0x6E + idx) ||| bits) else m.put (0x6E + idx) (m (0x6E + idx) &&& ~~~bits)
/-- `EnableCounterOverflow` (AVR/Interrupt.h 84-96). -/
def enableOverflow := enableTimer 1#8
/-- `EnableTimerCompareA` (AVR/Interrupt.h 99-112). -/
def enableCompareA := enableTimer 2#8
/-- `EnableTimerCompareB` (AVR/Interrupt.h 114-127). -/
def enableCompareB := enableTimer 4#8

/-! ### Button.h -/

/-- `ButtonStates` (Button.h 34-46). -/
inductive BState where
  | unknown | opened | closed | hold | pending
  deriving DecidableEq, Repr

/-- The enum's value (AVR/Button.h 34-46). -/
def BState.val : BState → BitVec 8
  | .unknown => 0 | .opened => 1 | .closed => 2 | .hold => 3 | .pending => 4

/-- The cast of a number to the enum; the other numbers have no name (AVR/Button.h 93-107). -/
def BState.of (v : BitVec 8) : Option BState :=
  if v = 0 then some .unknown else if v = 1 then some .opened else if v = 2 then some .closed else if v = 3 then some .hold else if v = 4 then some .pending else none

/-- `getButtonState` (Button.h 93-96) on `_states`; `int` has 16 bits. -/
def getState (s : BitVec 8) : Res (BitVec 8) := Bits.BitArray.getField 16 s 0 3
/-- `getPrevState` (Button.h 104-107). -/
def getPrev (s : BitVec 8) : Res (BitVec 8) := Bits.BitArray.getField 16 s 3 3

/-- `SetButtonState` (Button.h 129-144). -/
def setButtonState (new : BState) (s : BitVec 8) : Res (BitVec 8 × Bool) := do
  let st ← getState s
  if st ≠ new.val ∧ ¬ (new = .closed ∧ st = BState.hold.val) then do
    let (s, _) ← Bits.BitArray.setField 16 s 3 st 3
    let (s, _) ← Bits.BitArray.setField 16 s 0 new.val 3
    .ok (s, true)
  else .ok (s, false)

/-- `ConvertToButtonState` (Button.h 60-76, 119-122). -/
def convert (inverse value : Bool) : BState := if inverse then (if value then .opened else .closed) else (if value then .closed else .opened)

/-- `SetButtonValue` (Button.h 98-101, 124-127) with the pin reading `v`. -/
def setButtonValue (inverse : Bool) (s : BitVec 8) (v : Bool) : Res (BitVec 8) := do
  let (s, _) ← setButtonState (convert inverse v) s
  .ok s

/-- Readings one after the other (AVR/Button.h 98-144). -/
def readings (inverse : Bool) (s : BitVec 8) : List Bool → Res (BitVec 8)
  | [] => .ok s
  | v :: vs => do let s ← setButtonValue inverse s v; readings inverse s vs

end Atl.Port
