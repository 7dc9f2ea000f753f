import Verif.Model.Bits

/-
  Model of the HD44780 classes: HD44780_Driver.h, HD44780_DriverI2C.h, HD44780_Controller.h, HD44780_View.h, HD44780_ViewPort.h,
  HD44780_DisplayWriter.h. Delays are not modelled. `int` has 16 bits.
-/
namespace Atl.Lcd
open Atl.Bits

/-- What the controller asks of its driver (`BaseT` of HD44780_Controller, HD44780_Controller.h 31-32 and HD44780_View.h 30). -/
inductive Call where
  | write4 (n : Nat)
  | command (b : Nat)
  | data (b : Nat)
  deriving Repr, DecidableEq

/-! ### HD44780_Driver.h -/
namespace Parallel

/-- The six pins (HD44780_Driver.h 106-111). -/
inductive Pin where
  | rs | e | d4 | d5 | d6 | d7
  deriving Repr, DecidableEq

/-- `Write4` with `PulseEnable` (HD44780_Driver.h 95-103, 126-131). -/
def write4 (data : Nat) : List (Pin × Bool) :=
  [(.d4, data &&& 1 != 0), (.d5, data &&& 2 != 0), (.d6, data &&& 4 != 0), (.d7, data &&& 8 != 0), (.e, false), (.e, true)]

/-- `Write8` (HD44780_Driver.h 85-89). -/
def write8 (data : Nat) : List (Pin × Bool) := write4 (data >>> 4) ++ write4 data

/-- `WriteCommand` (HD44780_Driver.h 65-69). -/
def writeCommand (cmd : Nat) : List (Pin × Bool) := (.rs, false) :: write8 cmd

/-- `WriteData` (HD44780_Driver.h 75-79). -/
def writeData (data : Nat) : List (Pin × Bool) := (.rs, true) :: write8 data

/-- Constructor (HD44780_Driver.h 49-51): Enable high. -/
def init : List (Pin × Bool) := [(.e, true)]

/-- A call on the driver (HD44780_Driver.h 65-107). -/
def call : Call → List (Pin × Bool)
  | .write4 n => write4 n
  | .command b => writeCommand b
  | .data b => writeData b

/-- A sequence of calls (HD44780_Driver.h 65-107). -/
def calls (l : List Call) : List (Pin × Bool) := l.flatMap call

end Parallel

/-- `Initialize` of the drivers (HD44780_Driver.h 55-59, 113-124; HD44780_DriverI2C.h 51-55, 120-131): as calls. -/
def driverInit : List Call := [.write4 2, .command 0x28]

/-! ### HD44780_DriverI2C.h -/
namespace I2C

/-- Ignore the flag returned by `BitArray::Set` (the calls of `_dataReg.Set` in HD44780_DriverI2C.h 61-150). -/
def drop1 (r : Res (BitVec 8 × Bool)) : Res (BitVec 8) := do let (x, _) ← r; .ok x

/-- Constructor (HD44780_DriverI2C.h 43-47): Enable and LED set, nothing sent. -/
def init : Res (BitVec 8) := do
  let r ← drop1 (BitArray.set 16 (0#8) 2)
  drop1 (BitArray.set 16 r 3)

/-- `PulseEnable` (HD44780_DriverI2C.h 143-152): the new register and the bytes sent. -/
def pulseEnable (reg : BitVec 8) : Res (BitVec 8 × List (BitVec 8)) := do
  let a ← drop1 (BitArray.reset 16 reg 2)
  let b ← drop1 (BitArray.set 16 a 2)
  .ok (b, [a, b])

/-- `Write4` (HD44780_DriverI2C.h 109-115). -/
def write4 (reg : BitVec 8) (data : Nat) : Res (BitVec 8 × List (BitVec 8)) := do
  let a ← drop1 (BitArray.setField 16 reg 4 (BitVec.ofNat 8 data) 4)
  let (b, l) ← pulseEnable a
  .ok (b, a :: l)

/-- `Write8` (HD44780_DriverI2C.h 99-103). -/
def write8 (reg : BitVec 8) (data : Nat) : Res (BitVec 8 × List (BitVec 8)) := do
  let (a, l) ← write4 reg (data >>> 4)
  let (b, m) ← write4 a data
  .ok (b, l ++ m)

/-- `ClearDataRegisters` (HD44780_DriverI2C.h 138-141). -/
def clearData (reg : BitVec 8) : Res (BitVec 8) := drop1 (BitArray.setField 16 reg 4 0 4)

/-- `WriteCommand` (HD44780_DriverI2C.h 61-68). -/
def writeCommand (reg : BitVec 8) (cmd : Nat) : Res (BitVec 8 × List (BitVec 8)) := do
  let a ← drop1 (BitArray.reset 16 reg 0)
  let a ← clearData a
  let (b, l) ← write8 a cmd
  .ok (b, a :: l)

/-- `WriteData` (HD44780_DriverI2C.h 74-81). -/
def writeData (reg : BitVec 8) (data : Nat) : Res (BitVec 8 × List (BitVec 8)) := do
  let a ← drop1 (BitArray.set 16 reg 0)
  let a ← clearData a
  let (b, l) ← write8 a data
  .ok (b, a :: l)

/-- `setEnableBacklight` (HD44780_DriverI2C.h 88-93). -/
def setBacklight (reg : BitVec 8) (v : Bool) : Res (BitVec 8 × List (BitVec 8)) := do
  let a ← drop1 (BitArray.setBool 16 reg 3 v)
  let a ← clearData a
  .ok (a, [a])

/-- `getEnableBacklight` (HD44780_DriverI2C.h 83-86). -/
def getBacklight (reg : BitVec 8) : Res Bool := BitArray.isTrue 16 reg 3

/-- A call on the driver: one of the common ones or the backlight (HD44780_DriverI2C.h 51-95). -/
inductive Op where
  | call (c : Call)
  | backlight (v : Bool)
  deriving Repr, DecidableEq

/-- One call (HD44780_DriverI2C.h 51-95). -/
def step (reg : BitVec 8) : Op → Res (BitVec 8 × List (BitVec 8))
  | .call (.write4 n) => write4 reg n
  | .call (.command b) => writeCommand reg b
  | .call (.data b) => writeData reg b
  | .backlight v => setBacklight reg v

/-- A sequence of calls (HD44780_DriverI2C.h 51-95). -/
def run (reg : BitVec 8) : List Op → Res (BitVec 8 × List (BitVec 8))
  | [] => .ok (reg, [])
  | op :: ops => do
    let (a, l) ← step reg op
    let (b, m) ← run a ops
    .ok (b, l ++ m)

end I2C

/-! ### HD44780_Controller.h -/
namespace Controller

/-- The registers in memory (HD44780_Controller.h 284) - a `BitArray<uint8_t>`; 0 initially (54-56). -/
abbrev Regs := BitVec 8

/-- `Registers` (HD44780_Controller.h 242-254). -/
def blink : Nat := 0
/-- `Registers` (HD44780_Controller.h 242-254). -/
def cursor : Nat := 1
/-- `Registers` (HD44780_Controller.h 242-254). -/
def display : Nat := 2
/-- `Registers` (HD44780_Controller.h 242-254). -/
def entryDisplayShift : Nat := 3
/-- `Registers` (HD44780_Controller.h 242-254). -/
def entryCursorDirection : Nat := 4

/-- `_registers.Set(index, value)` (HD44780_Controller.h 261-264). -/
def setReg (r : Regs) (i : Nat) (v : Bool) : Res Regs := do let (x, _) ← BitArray.setBool 16 r i v; .ok x

/-- `WriteDisplayControl` (HD44780_Controller.h 298-302). -/
def displayControl (r : Regs) : Call := .command ((r.toNat &&& 0x07) ||| 0x08)

/-- `WriteEntryMode` (HD44780_Controller.h 304-309). -/
def entryMode (r : Regs) : Call := .command (((r.toNat &&& 0x18) >>> 3) ||| 0x04)

/-- The public settings of the controller. `Left` is `true` (HD44780_Controller.h 100-204). -/
inductive Setting where
  | enableBlink (v : Bool)
  | enableCursor (v : Bool)
  | enableDisplay (v : Bool)
  | displayControl (d c b : Bool)
  | entryDirection (left : Bool)
  | displayShift (v : Bool)
  | entryMode (left : Bool) (shift : Bool)
  deriving Repr, DecidableEq

/-- The setters (HD44780_Controller.h 108-112, 125-129, 142-146, 153-159, 172-176, 189-193, 199-204). -/
def set (r : Regs) : Setting → Res (Regs × List Call)
  | .enableBlink v => do let r ← setReg r blink v; .ok (r, [Controller.displayControl r])
  | .enableCursor v => do let r ← setReg r cursor v; .ok (r, [Controller.displayControl r])
  | .enableDisplay v => do let r ← setReg r display v; .ok (r, [Controller.displayControl r])
  | .displayControl d c b => do
    let r ← setReg r blink b
    let r ← setReg r cursor c
    let r ← setReg r display d
    .ok (r, [Controller.displayControl r])
  | .entryDirection left => do let r ← setReg r entryCursorDirection left; .ok (r, [Controller.entryMode r])
  | .displayShift v => do let r ← setReg r entryDisplayShift v; .ok (r, [Controller.entryMode r])
  | .entryMode left shift => do
    let r ← setReg r entryCursorDirection left
    let r ← setReg r entryDisplayShift shift
    .ok (r, [Controller.entryMode r])

/-- The getters (HD44780_Controller.h 100-103, 117-120, 134-137, 164-167, 181-184); `getEntryCursorDirection` as "is Left". -/
def getBlink (r : Regs) : Res Bool := BitArray.isTrue 16 r blink
/-- `getEnableCursor` (HD44780_Controller.h 117-120). -/
def getCursor (r : Regs) : Res Bool := BitArray.isTrue 16 r cursor
/-- `getEnableDisplay` (HD44780_Controller.h 134-137). -/
def getDisplay (r : Regs) : Res Bool := BitArray.isTrue 16 r display
/-- `getEntryCursorDirection` (HD44780_Controller.h 164-167). -/
def getEntryLeft (r : Regs) : Res Bool := do let b ← BitArray.isFalse 16 r entryCursorDirection; .ok (!b)
/-- `getEnableDisplayShift` (HD44780_Controller.h 181-184). -/
def getDisplayShift (r : Regs) : Res Bool := BitArray.isTrue 16 r entryDisplayShift

/-- A history of settings: the calls on the driver, in order (HD44780_Controller.h 100-204). -/
def sets (r : Regs) : List Setting → Res (Regs × List Call)
  | [] => .ok (r, [])
  | s :: l => do
    let (a, x) ← set r s
    let (b, y) ← sets a l
    .ok (b, x ++ y)

/-- `ClearDisplay` (83-87), `ReturnHome` (91-95). -/
def clearDisplay : List Call := [.command 1]
/-- `ReturnHome` (HD44780_Controller.h 91-95). -/
def returnHome : List Call := [.command 2]

/-- `Initialize(full)` (HD44780_Controller.h 62-79). -/
def startUp (full : Bool) : List Call :=
  (if full then [Call.write4 3, .write4 3, .write4 3] ++ driverInit else []) ++ clearDisplay ++ returnHome

/-- `WriteDisplayAddress` (HD44780_Controller.h 210-214), `address` a byte. -/
def writeDisplayAddress (address : Nat) : List Call := [.command (address ||| 0x80)]

/-- `WriteCharacterAddress` (HD44780_Controller.h 219-223). -/
def writeCharacterAddress (address : Nat) : List Call := [.command ((address &&& 0x3F) ||| 0x40)]

/-- `WriteCursorShift` (HD44780_Controller.h 229-237). -/
def writeCursorShift (shiftDisplay right : Bool) : List Call :=
  [.command (0x10 ||| (if shiftDisplay then 0x08 else 0) ||| (if right then 0x04 else 0))]

end Controller

/-! ### HD44780_View.h -/
namespace View

/-- `_cursorRow`, `_cursorCol` (HD44780_View.h 154-155, bytes, uninitialised) and the controller's registers. -/
structure State where
  row : Nat
  col : Nat
  regs : Controller.Regs
  deriving Repr, DecidableEq

/-- `getTotalColumns` (HD44780_View.h 94-97). -/
def totalColumns (rows : Nat) : Nat := 80 / rows

/-- `IncrementCurrentRow` (HD44780_View.h 157-167). -/
def incRow (rows : Nat) (s : State) : State :=
  if s.row + 1 > rows then { s with row := 0 } else { s with row := toU 8 (s.row + 1) }

/-- `IncrementCurrentCol` (HD44780_View.h 169-180). -/
def incCol (rows : Nat) (s : State) : State :=
  if s.col + 1 > totalColumns rows then incRow rows { s with col := 0 } else { s with col := toU 8 (s.col + 1) }

/-- `rowOffsets` (HD44780_View.h 184). -/
def rowOffsets : List Nat := [0x00, 0x40, 0x14, 0x54]

/-- `CalcAddress` (HD44780_View.h 182-192). -/
def calcAddress (rows r c : Nat) : Res Nat := do
  let r := if r ≥ rows then 0 else r
  let o ← cGet rowOffsets r
  .ok (toU 8 (o + c))

/-- `WriteDisplayAddress` (HD44780_View.h 195-198). -/
def writeAddress (rows : Nat) (s : State) : Res (List Call) := do
  let a ← calcAddress rows s.row s.col
  .ok (Controller.writeDisplayAddress a)

/-- `Write(char)` (HD44780_View.h 61-80); `c` is the byte. -/
def write (rows : Nat) (s : State) (c : Nat) : Res (State × List Call) :=
  if c = 10 then do
    let s := incRow rows s
    .ok (s, ← writeAddress rows s)
  else if c = 13 then do
    let s := { s with col := 0 }
    .ok (s, ← writeAddress rows s)
  else .ok (incCol rows s, [.data c])

/-- `SetCursor` (HD44780_View.h 120-125); arguments are bytes. -/
def setCursor (rows : Nat) (s : State) (r c : Nat) : Res (State × List Call) := do
  let s := { s with row := r, col := c }
  .ok (s, ← writeAddress rows s)

/-- `ReturnHome` (HD44780_View.h 146-151). -/
def returnHome (s : State) : State × List Call := ({ s with row := 0, col := 0 }, Controller.returnHome)

/-- `Initialize(full)` (HD44780_View.h 46-54): the cursor members are not touched. -/
def startUp (s : State) (full : Bool) : Res (State × List Call) :=
  if full then do
    let (r, l) ← Controller.set s.regs (.entryMode true false)
    .ok ({ s with regs := r }, Controller.startUp full ++ l)
  else .ok (s, Controller.startUp full)

/-- What a user can do with a view (HD44780_View.h 46-151). -/
inductive Op where
  | put (c : Nat)
  | setCursor (r c : Nat)
  | home
  | startUp (full : Bool)
  | clear
  | setting (s : Controller.Setting)
  deriving Repr, DecidableEq

/-- One operation; `ClearDisplay` and the settings are inherited from the controller (HD44780_View.h 46-151, HD44780_Controller.h 83-236). -/
def step (rows : Nat) (s : State) : Op → Res (State × List Call)
  | .put c => write rows s c
  | .setCursor r c => setCursor rows s r c
  | .home => .ok (returnHome s)
  | .startUp full => startUp s full
  | .clear => .ok (s, Controller.clearDisplay)
  | .setting x => do let (r, l) ← Controller.set s.regs x; .ok ({ s with regs := r }, l)

/-- A history (HD44780_View.h 46-151). -/
def run (rows : Nat) (s : State) : List Op → Res (State × List Call)
  | [] => .ok (s, [])
  | op :: ops => do
    let (a, l) ← step rows s op
    let (b, m) ← run rows a ops
    .ok (b, l ++ m)

end View

/-! ### HD44780_ViewPort.h -/
namespace ViewPort

/-- `ScrollRight` (HD44780_ViewPort.h 47-57): new `_offset`, result, calls. -/
def scrollRight (offset : Nat) : Nat × Bool × List Call :=
  if offset > 0 then (offset - 1, true, Controller.writeCursorShift true true) else (offset, false, [])

/-- `ScrollLeft` (HD44780_ViewPort.h 63-73). -/
def scrollLeft (total offset : Nat) : Nat × Bool × List Call :=
  if offset > total then (toU 8 (offset + 1), true, Controller.writeCursorShift true false) else (offset, false, [])

/-- A history of scrolls (`true` = left) from the constructor (39-41). -/
def run (total : Nat) (offset : Nat) : List Bool → Nat × List Bool × List Call
  | [] => (offset, [], [])
  | left :: l =>
    let (o, r, c) := if left then scrollLeft total offset else scrollRight offset
    let (o', rs, cs) := run total o l
    (o', r :: rs, c ++ cs)

end ViewPort

/-! ### HD44780_DisplayWriter.h -/
namespace Writer

/-- `DisplayWriter::DontCare` (DisplayWriter.h 38). -/
def dontCare : Nat := 0xFF

/-- `GoTo` (HD44780_DisplayWriter.h 58-66). -/
def goTo (rows : Nat) (s : View.State) (line col : Nat) : Res (View.State × List Call) :=
  let line := if line = dontCare then s.row else line
  let col := if col = dontCare then s.col else col
  View.setCursor rows s line col

/-- `SetCursor` (HD44780_DisplayWriter.h 74-93). -/
def setCursor (rows : Nat) (s : View.State) (line col : Nat) (edit : Bool) : Res (View.State × List Call) :=
  if line = dontCare ∧ col = dontCare then do
    let (r, l) ← Controller.set s.regs (.enableCursor false)
    .ok ({ s with regs := r }, l)
  else do
    let on ← Controller.getCursor s.regs
    let (r1, l1) ← id (if !on then Controller.set s.regs (.enableCursor true) else .ok (s.regs, []))
    let bl ← Controller.getBlink r1
    let (r2, l2) ← id (if bl ≠ edit then Controller.set r1 (.enableBlink edit) else .ok (r1, []))
    let (s', l3) ← View.setCursor rows { s with regs := r2 } line col
    .ok (s', l1 ++ l2 ++ l3)

/-- `Write(const char*)` (HD44780_DisplayWriter.h 47-50, TextWriter.h 57-66): the characters one by one. -/
def write (rows : Nat) (s : View.State) (text : List Nat) : Res (View.State × List Call) :=
  View.run rows s (text.map .put)

end Writer

end Atl.Lcd
