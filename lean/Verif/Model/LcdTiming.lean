import Verif.Model.Lcd

/-
  The delays of the HD44780 classes: HD44780_Profile.h and its uses in HD44780_Driver.h, HD44780_Controller.h and HD44780_View.h.
  Times in microseconds.
-/
namespace Atl.Lcd.Timing
open Atl.Lcd

/-- The delays of a timing profile (HD44780_Profile.h 31-90). -/
structure Profile where
  powerUp : Nat
  initLong : Nat
  initMid : Nat
  initShort : Nat
  command : Nat
  commandLong : Nat
  pulse : Nat

/-- HD44780_Profile (39, 47, 55, 63, 71, 79, 87). -/
def Profile.default : Profile := ⟨10000, 1000, 30, 20, 15, 800, 8⟩

/-- A pin write or a delay (HD44780_Driver.h 41-132). -/
inductive Act where
  | set (p : Parallel.Pin) (v : Bool)
  | wait (us : Nat)
  deriving DecidableEq, Repr

/-- A call on the driver or a delay of the controller (HD44780_Controller.h 62-95). -/
inductive TCall where
  | call (c : Call)
  | wait (us : Nat)
  deriving DecidableEq, Repr

variable (P : Profile)

/-- `Write4` with `PulseEnable` (HD44780_Driver.h 95-103, 126-131). -/
def write4 (data : Nat) : List Act :=
  [.set .d4 (data &&& 1 != 0), .set .d5 (data &&& 2 != 0), .set .d6 (data &&& 4 != 0), .set .d7 (data &&& 8 != 0),
   .set .e false, .wait P.pulse, .set .e true]

/-- `WriteCommand`, `WriteData` with `Write8` (HD44780_Driver.h 65-89). -/
def writeByte (rs : Bool) (data : Nat) : List Act := .set .rs rs :: (write4 P (data >>> 4) ++ write4 P data)

/-- The driver (HD44780_Driver.h 41-132). -/
def act : TCall → List Act
  | .call (.write4 n) => write4 P n
  | .call (.command b) => writeByte P false b
  | .call (.data b) => writeByte P true b
  | .wait us => [.wait us]

/-- The commands of the controller that wait `WaitForCommand` (HD44780_Controller.h 212-213, 221-222, 235-236, 300-301, 307-308). -/
def command (l : List Call) : List TCall := l.flatMap fun c => [.call c, .wait P.command]

/-- `ClearDisplay` (HD44780_Controller.h 83-87). -/
def clearDisplay : List TCall := [.call (.command 1), .wait P.commandLong]
/-- `ReturnHome` (HD44780_Controller.h 91-95). -/
def returnHome : List TCall := [.call (.command 2), .wait P.commandLong]

/-- `Initialize(full)` (HD44780_Controller.h 62-79) with `Initialize` of the driver (HD44780_Driver.h 55-59), which does not wait. -/
def startUp (full : Bool) : List TCall :=
  (if full then [.wait P.powerUp, .call (.write4 3), .wait P.initLong, .call (.write4 3), .wait P.initMid, .call (.write4 3), .wait P.initShort] ++
    driverInit.map .call else []) ++ clearDisplay P ++ returnHome P

/-- `Write(char)` (HD44780_View.h 61-80): the new line and return write an address, which waits; data does not. -/
def write (rows : Nat) (s : View.State) (c : Nat) : Res (View.State × List TCall) := do
  let (s', l) ← View.write rows s c
  .ok (s', if c = 10 ∨ c = 13 then command P l else l.map .call)

/-- One operation of the view with its delays (HD44780_View.h 46-54, 61-80, 120-125, 146-151). -/
def step (rows : Nat) (s : View.State) : View.Op → Res (View.State × List TCall)
  | .put c => write P rows s c
  | .setCursor r c => do let (s', l) ← View.setCursor rows s r c; .ok (s', command P l)
  | .home => .ok ((View.returnHome s).1, returnHome P)
  | .startUp full =>
    if full then do
      let (r, l) ← Controller.set s.regs (.entryMode true false)
      .ok ({ s with regs := r }, startUp P full ++ command P l)
    else .ok (s, startUp P full)
  | .clear => .ok (s, clearDisplay P)
  | .setting x => do let (r, l) ← Controller.set s.regs x; .ok ({ s with regs := r }, command P l)

/-- A history (HD44780_View.h 46-202). -/
def run (rows : Nat) (s : View.State) : List View.Op → Res (View.State × List TCall)
  | [] => .ok (s, [])
  | op :: ops => do
    let (a, x) ← step P rows s op
    let (b, y) ← run rows a ops
    .ok (b, x ++ y)


/-! ### The I2C driver (HD44780_DriverI2C.h) -/

namespace I2C
open Atl.Bits Atl.Lcd.I2C

/-- A byte sent to the port expander or a delay (HD44780_DriverI2C.h 133-152). -/
inductive Act where
  | send (b : BitVec 8)
  | wait (us : Nat)
  deriving DecidableEq, Repr

/-- `PulseEnable` (HD44780_DriverI2C.h 143-152). -/
def pulseEnable (reg : BitVec 8) : Res (BitVec 8 × List Act) := do
  let a ← drop1 (BitArray.reset 16 reg 2)
  let b ← drop1 (BitArray.set 16 a 2)
  .ok (b, [.send a, .wait P.pulse, .send b])

/-- `Write4` (HD44780_DriverI2C.h 109-115). -/
def write4 (reg : BitVec 8) (data : Nat) : Res (BitVec 8 × List Act) := do
  let a ← drop1 (BitArray.setField 16 reg 4 (BitVec.ofNat 8 data) 4)
  let (b, l) ← pulseEnable P a
  .ok (b, .send a :: l)

/-- `Write8` (HD44780_DriverI2C.h 99-103). -/
def write8 (reg : BitVec 8) (data : Nat) : Res (BitVec 8 × List Act) := do
  let (a, l) ← write4 P reg (data >>> 4)
  let (b, m) ← write4 P a data
  .ok (b, l ++ m)

/-- `WriteCommand` (HD44780_DriverI2C.h 61-68). -/
def writeCommand (reg : BitVec 8) (cmd : Nat) : Res (BitVec 8 × List Act) := do
  let a ← drop1 (BitArray.reset 16 reg 0)
  let a ← clearData a
  let (b, l) ← write8 P a cmd
  .ok (b, .send a :: l)

/-- `WriteData` (HD44780_DriverI2C.h 74-81). -/
def writeData (reg : BitVec 8) (data : Nat) : Res (BitVec 8 × List Act) := do
  let a ← drop1 (BitArray.set 16 reg 0)
  let a ← clearData a
  let (b, l) ← write8 P a data
  .ok (b, .send a :: l)

/-- `setEnableBacklight` (HD44780_DriverI2C.h 88-93). -/
def setBacklight (reg : BitVec 8) (v : Bool) : Res (BitVec 8 × List Act) := do
  let a ← drop1 (BitArray.setBool 16 reg 3 v)
  let a ← clearData a
  .ok (a, [.send a])

/-- A call of the controller on the driver, or its delay (HD44780_DriverI2C.h 51-115). -/
def act (reg : BitVec 8) : TCall → Res (BitVec 8 × List Act)
  | .call (.write4 n) => write4 P reg n
  | .call (.command b) => writeCommand P reg b
  | .call (.data b) => writeData P reg b
  | .wait us => .ok (reg, [.wait us])

/-- A sequence of them (HD44780_DriverI2C.h 51-115). -/
def acts (reg : BitVec 8) : List TCall → Res (BitVec 8 × List Act)
  | [] => .ok (reg, [])
  | c :: l => do
    let (a, x) ← act P reg c
    let (b, y) ← acts a l
    .ok (b, x ++ y)

/-- What a program does: an operation of the view (HD44780_View.h 46-202) or switching the backlight (HD44780_DriverI2C.h 88-93). -/
inductive Op where
  | view (o : View.Op)
  | backlight (v : Bool)
  deriving DecidableEq, Repr

/-- The view and the register of the driver (HD44780_View.h 154-155, HD44780_DriverI2C.h 118). -/
structure State where
  view : View.State
  reg : BitVec 8

/-- One operation (HD44780_View.h 46-202 over HD44780_DriverI2C.h 51-115). -/
def step (rows : Nat) (s : State) : Op → Res (State × List Act)
  | .view o => do
    let (v, l) ← Timing.step P rows s.view o
    let (r, m) ← acts P s.reg l
    .ok (⟨v, r⟩, m)
  | .backlight v => do
    let (r, m) ← setBacklight s.reg v
    .ok (⟨s.view, r⟩, m)

/-- A program (HD44780_View.h 46-202 over HD44780_DriverI2C.h 51-115). -/
def run (rows : Nat) (s : State) : List Op → Res (State × List Act)
  | [] => .ok (s, [])
  | o :: l => do
    let (s', x) ← step P rows s o
    let (s'', y) ← run rows s' l
    .ok (s'', x ++ y)

end I2C

end Atl.Lcd.Timing
