import Verif.Model.RingBuffer
import Verif.Model.Bits

/-
  Model of AVR/UsartConfig.h, Usart.h, UsartTransmit.h, UsartReceive.h, UsartInputStream.h, UsartOutputStream.h, UsartRegisters.h
  (Source/Code/ArduinoTemplateLibrary/AVR) over a model of the USART hardware (ATmega644/1284 data sheet, chapter USART).
-/
namespace Atl.Usart

/-- `UsartDataBits` (UsartConfig.h 58-71). -/
inductive DataBits where
  | bits5 | bits6 | bits7 | bits8 | bits9
  deriving DecidableEq, Repr

/-- The enum value (UsartConfig.h 58-71). -/
def DataBits.value : DataBits → Nat
  | .bits5 => 0
  | .bits6 => 1
  | .bits7 => 2
  | .bits8 => 3
  | .bits9 => 4

/-- `UsartParity` (UsartConfig.h 76-85). -/
inductive Parity where
  | off | even | odd
  deriving DecidableEq, Repr

/-- `UsartStopBits` (UsartConfig.h 90-97). -/
inductive StopBits where
  | one | two
  deriving DecidableEq, Repr

/-- `UsartModes` (UsartConfig.h 40-53). -/
inductive Mode where
  | invalid | async | asyncDouble | syncMaster | syncSlave
  deriving DecidableEq, Repr

/-- UsartConfig (UsartConfig.h 103-117, 342-347) with the constructor's values. -/
structure Config where
  div : Nat := 0
  ubrr : Nat := 0
  dataBits : DataBits := .bits8
  parity : Parity := .off
  stop : StopBits := .one
  deriving DecidableEq, Repr

namespace Config

/-- `CalcUBRR` (UsartConfig.h 351-354); `F` is F_CPU, a `long`. -/
def calcUBRR (F d b : Nat) : Res Int := if d * b = 0 then .ub else .ok (toS 16 ((F / (d * b) : Nat) - 1))

/-- `CalcBaudRate` (UsartConfig.h 357-360); `ubrr + 1` is computed in 16 bits (`unsigned int`, AVR). -/
def calcBaud (F d : Nat) (u : Int) : Res Int :=
  let k := toU 16 (u + 1)
  if d * k = 0 then .ub else .ok (toS 16 ((F / (d * k) : Nat)))

/-- `isValidUBRR` (UsartConfig.h 362-365). -/
def isValid (u : Int) : Bool := decide (u < 4096) && decide (0 ≤ u)

/-- `Math::Abs<int16_t>` (Math.h 37-41) with `int` of 16 bits: the negation of -32768 overflows. -/
def abs16 (x : Int) : Res Int := if 0 ≤ x then .ok x else if x = -32768 then .ub else .ok (-x)

/-- `ClearBaudRate` (UsartConfig.h 367-371). -/
def clearBaud (c : Config) : Config := { c with div := 0, ubrr := 0 }

/-- `InitAsync` (UsartConfig.h 125-165). -/
def initAsync (F b : Nat) (c : Config) : Res (Config × Bool) := do
  let u8 ← calcUBRR F 8 b
  let u16 ← calcUBRR F 16 b
  if !isValid u8 || !isValid u16 then
    if isValid u16 then .ok ({ c with div := 16, ubrr := u16.toNat }, true)
    else if isValid u8 then .ok ({ c with div := 8, ubrr := u8.toNat }, true)
    else .ok (clearBaud c, false)
  else do
    let r8 ← calcBaud F 8 u8
    let d8 ← abs16 (toS 16 (b - r8))
    let r16 ← calcBaud F 16 u16
    let d16 ← abs16 (toS 16 (b - r16))
    if d16 > d8 then .ok ({ c with div := 8, ubrr := u8.toNat }, true)
    else .ok ({ c with div := 16, ubrr := u16.toNat }, true)

/-- `getBaudRate` (UsartConfig.h 178-182), result `uint16_t`. -/
def getBaudRate (F : Nat) (c : Config) : Res Nat :=
  if c.ubrr = 0 ∨ c.div = 0 then .ok 0 else do
    let r ← calcBaud F c.div c.ubrr
    .ok (toU 16 r)

/-- `getMode` (UsartConfig.h 188-205). -/
def getMode (c : Config) : Mode :=
  if c.div = 16 then .async else if c.div = 8 then .asyncDouble else if c.div = 2 then .syncMaster else if c.div = 0 then .syncSlave else .invalid

end Config

/-- `Bit<i>::Set(target)` (Bit.h 43-47) on a register. -/
def setBit (i : Nat) (t : BitVec 8) : BitVec 8 := t ||| (1#8 <<< i)
/-- `Bit<i>::Reset(target)`, also the first store of `Bit<i>::Set(target, bool)` (Bit.h 55-78). -/
def clearBit (i : Nat) (t : BitVec 8) : BitVec 8 := t &&& ~~~(1#8 <<< i)
/-- `Bit<i>::IsTrue(target)` (Bit.h 94-98). -/
def isTrue (i : Nat) (t : BitVec 8) : Bool := (t &&& (1#8 <<< i)) != 0#8

namespace Config

/-- `getUCSRA` (UsartConfig.h 268-279); U2X0 = 1. -/
def ucsra (c : Config) : BitVec 8 := if c.div = 8 then setBit 1 0 else 0

/-- `getUCSRB` (UsartConfig.h 284-294); UCSZ02 = 2. -/
def ucsrb (c : Config) : BitVec 8 := if c.dataBits = .bits9 then setBit 2 0 else 0

/-- `getUCSRC` (UsartConfig.h 299-339); UMSEL00 = 6, UPM01 = 5, UPM00 = 4, USBS0 = 3, UCSZ00 = 1. -/
def ucsrc (c : Config) : BitVec 8 :=
  let r : BitVec 8 := 0
  let r := if c.div < 8 then setBit 6 r else r
  let r := if c.parity ≠ .off then setBit 5 (if c.parity = .even then setBit 4 r else r) else r
  let r := if c.stop = .two then setBit 3 r else r
  if c.dataBits.value < 4 then r ||| (BitVec.ofNat 8 c.dataBits.value <<< 1) else setBit 1 r

end Config

/-! ### Data memory -/

/-- The data memory with the registers (the USART registers of AVR/UsartRegisters.h 52-98). -/
abbrev Mem := Nat → BitVec 8

/-- A store (as in AVR/UsartConfig.h 60-375). -/
def Mem.put (m : Mem) (a : Nat) (v : BitVec 8) : Mem := fun x => if x = a then v else m x

/-- `UsartRegisters<id>` (UsartRegisters.h 59-94). -/
def aUCSRA (id : Nat) : Nat := 0xC0 + id * 8
/-- `getUCSRB` (AVR/UsartRegisters.h 75-81). -/
def aUCSRB (id : Nat) : Nat := 0xC1 + id * 8
/-- `getUCSRC` (AVR/UsartRegisters.h 83-89). -/
def aUCSRC (id : Nat) : Nat := 0xC2 + id * 8
/-- `getUBRR` (AVR/UsartRegisters.h 59-65). -/
def aUBRR (id : Nat) : Nat := 0xC4 + id * 8

/-- `PRR0` and its bits `PRUSART0`, `PRUSART1` (iom644p.h, iom1284p.h). -/
def aPRR0 : Nat := 0x64
/-- `PRUSART0`, `PRUSART1`, used in AVR/PowerReduction.h 49-73. -/
def prUsart (id : Nat) : Nat := if id = 0 then 1 else 4

/-- `PowerReduction::setEnableUsart<id>` (PowerReduction.h 49-73). -/
def setEnableUsart (id : Nat) (enable : Bool) (m : Mem) : Mem :=
  m.put aPRR0 (if enable then clearBit (prUsart id) (m aPRR0) else setBit (prUsart id) (m aPRR0))

/-- `PowerReduction::getEnableUsart<id>` (PowerReduction.h 75-85). -/
def getEnableUsart (id : Nat) (m : Mem) : Bool := (m aPRR0 &&& BitVec.ofNat 8 (prUsart id)) == 0#8

/-- `Bit<i>::Set(register, value)` (Bit.h 55-67): the stores. -/
def memBit (a i : Nat) (v : Bool) (m : Mem) : Mem :=
  let m := m.put a (clearBit i (m a))
  if v then m.put a (setBit i (m a)) else m

/-- `Usart::OpenAsync` (Usart.h 64-81). The 16-bit store to UBRR is two byte stores. -/
def openAsync (id : Nat) (c : Config) (m : Mem) : Mem × Bool :=
  if c.getMode ≠ .async ∧ c.getMode ≠ .asyncDouble then (m, false) else
    let m := setEnableUsart id true m
    let m := (m.put (aUBRR id) (BitVec.ofNat 8 c.ubrr)).put (aUBRR id + 1) (BitVec.ofNat 8 (c.ubrr / 256))
    let m := m.put (aUCSRA id) c.ucsra
    let m := m.put (aUCSRB id) c.ucsrb
    let m := m.put (aUCSRC id) c.ucsrc
    (m, true)

/-- `Usart::Close` (Usart.h 87-92) with `UsartReceive::Close` (UsartReceive.h 182-186) and `UsartTransmit::Close` (UsartTransmit.h 184-189);
    RXCIE0 = 7, TXCIE0 = 6, UDRIE0 = 5, RXEN0 = 4, TXEN0 = 3. -/
def close (id : Nat) (m : Mem) : Mem :=
  let m := memBit (aUCSRB id) 7 false m
  let m := memBit (aUCSRB id) 4 false m
  let m := memBit (aUCSRB id) 6 false m
  let m := memBit (aUCSRB id) 5 false m
  let m := memBit (aUCSRB id) 3 false m
  setEnableUsart id false m

/-! ### The hardware of one USART (data sheet) -/

/-- A received frame: up to nine data bits and the error flags (the USART registers of AVR/UsartRegisters.h 52-98). -/
structure Frame where
  data : Nat
  fe : Bool := false
  dor : Bool := false
  upe : Bool := false
  deriving DecidableEq, Repr

/-- UCSRB (without RXB8), receive FIFO, transmit buffer, shift register, what has been put on the line. -/
structure Hw where
  ucsrb : BitVec 8 := 0
  rx : List Frame := []
  tx : Option Nat := none
  shift : Option Nat := none
  line : List Nat := []
  deriving DecidableEq, Repr

namespace Hw
/-- Reading UCSRA: RXC0 = 7, UDRE0 = 5, FE0 = 4, DOR0 = 3, UPE0 = 2 (TXC0, U2X0, MPCM0 are not modelled). The flags belong to the oldest frame (the USART registers of AVR/UsartRegisters.h 52-98). -/
def readA (h : Hw) : BitVec 8 :=
  let a : BitVec 8 := if h.tx = none then setBit 5 0 else 0
  match h.rx with
  | [] => a
  | f :: _ =>
    let a := setBit 7 a
    let a := if f.fe then setBit 4 a else a
    let a := if f.dor then setBit 3 a else a
    if f.upe then setBit 2 a else a

/-- Reading UCSRB: RXB80 = 1 is bit 8 of the oldest frame (the USART registers of AVR/UsartRegisters.h 52-98). -/
def readB (h : Hw) : BitVec 8 := match h.rx with
  | f :: _ => if f.data.testBit 8 then setBit 1 (clearBit 1 h.ucsrb) else clearBit 1 h.ucsrb
  | [] => clearBit 1 h.ucsrb

/-- Writing UCSRB; disabling the receiver (RXEN0 = 4) empties the FIFO. -/
def writeB (v : BitVec 8) (h : Hw) : Hw := { h with ucsrb := v, rx := if isTrue 4 v then h.rx else [] }

/-- Reading UDR removes the oldest frame; without one the content is not defined by the data sheet, 0 here (the USART registers of AVR/UsartRegisters.h 52-98). -/
def readUDR (h : Hw) : Nat × Hw := match h.rx with
  | [] => (0, h)
  | f :: r => (f.data % 256, { h with rx := r })

/-- Writing UDR fills the transmit buffer together with TXB80 = 0 in nine bit mode; ignored while the buffer is full (the USART registers of AVR/UsartRegisters.h 52-98). -/
def writeUDR (v : Nat) (h : Hw) : Hw :=
  if h.tx = none then { h with tx := some (v + if isTrue 2 h.ucsrb && isTrue 0 h.ucsrb then 256 else 0) } else h

/-- One frame time: the shift register empties onto the line and takes the next frame (the USART registers of AVR/UsartRegisters.h 52-98). -/
def frameTime (h : Hw) : Hw := { h with
  line := h.line ++ h.shift.toList
  shift := h.tx
  tx := none }

/-- The shift register is empty: it takes the buffer at once (the USART registers of AVR/UsartRegisters.h 52-98). -/
def load (h : Hw) : Hw := if h.shift = none then { h with shift := h.tx, tx := none } else h

/-- `Bit<i>::Set(UCSRB, v)` (Bit.h 55-67): read, store with the bit cleared, and for `true` read and store with the bit set. -/
def bitB (i : Nat) (v : Bool) (h : Hw) : Hw :=
  let h := h.writeB (clearBit i h.readB)
  if v then h.writeB (setBit i h.readB) else h
end Hw

/-! ### UsartTransmit.h -/
/-- `getAcceptData` (UsartTransmit.h 86-89). -/
def getAcceptData (h : Hw) : Bool := isTrue 5 h.readA
/-- `getIs9DataBits` (UsartTransmit.h 209-212, UsartReceive.h 229-232). -/
def is9 (h : Hw) : Bool := isTrue 2 h.readB
/-- `WriteInternal` (UsartTransmit.h 196-204). -/
def writeInternal (data : Nat) (h : Hw) : Hw :=
  let h := if is9 h then h.bitB 0 (data.testBit 8) else h
  h.writeUDR (data % 256)
/-- `TryWrite` (UsartTransmit.h 160-171). -/
def tryWrite (data : Nat) (h : Hw) : Hw × Bool := if !getAcceptData h then (h, false) else (writeInternal data h, true)
/-- `Flush` (UsartTransmit.h 138-142): waits for the transmit buffer, one frame time per round; `none`: not returned. -/
def txFlush : Nat → Hw → Option Hw
  | 0, _ => none
  | f + 1, h => if getAcceptData h then some h else txFlush f h.frameTime

/-! ### UsartReceive.h -/
/-- `UsartReceiveResult` (UsartReceive.h 33-46). -/
inductive RxResult where
  | success | notReady | dataOverRun | frameError | parityError
  deriving DecidableEq, Repr
/-- `getIsComplete` (UsartReceive.h 92-95). -/
def rxComplete (h : Hw) : Bool := isTrue 7 h.readA
/-- `setEnable` (UsartReceive.h 59-62). -/
def rxSetEnable (v : Bool) (h : Hw) : Hw := h.bitB 4 v
/-- `setEnableIsCompleteInterrupt` (UsartReceive.h 76-79). -/
def rxSetInterrupt (v : Bool) (h : Hw) : Hw := h.bitB 7 v
/-- `getResult` (UsartReceive.h 192-204). -/
def getResult (h : Hw) : RxResult :=
  if isTrue 4 h.readA then .frameError else if isTrue 2 h.readA then .parityError else if isTrue 3 h.readA then .dataOverRun else .success
/-- `ReadInternal` (UsartReceive.h 210-224). -/
def readInternal (h : Hw) : Nat × Hw :=
  let hi := if is9 h then (if isTrue 1 h.readB then 0x100 else 0) else 0
  let r := h.readUDR
  (hi ||| r.1, r.2)
/-- `TryRead` (UsartReceive.h 145-157). -/
def tryRead (h : Hw) : (Bool × Nat × RxResult) × Hw :=
  if !rxComplete h then ((false, 0, .notReady), h) else
    let r := getResult h
    let d := readInternal h
    ((true, d.1, r), d.2)
/-- `getHasError` (UsartReceive.h 164-169). -/
def getHasError (h : Hw) : Bool := (h.readA &&& ((1#8 <<< 4) ||| (1#8 <<< 2))) != 0#8
/-- `Read()` (UsartReceive.h 119-126) polling: before each poll the frames of one list arrive; `none`: not returned. -/
def rxRead : List (List Frame) → Hw → Option (Int × Hw)
  | [], _ => none
  | a :: as, h =>
    let h := { h with rx := h.rx ++ a }
    if rxComplete h then
      let r := getResult h
      let d := readInternal h
      some (if r ≠ .success then -1 else (d.1 : Int), d.2)
    else rxRead as h
/-- `Read(outResult)` (UsartReceive.h 132-137) polling the same way: the value and the result. -/
def rxReadResult : List (List Frame) → Hw → Option (Int × RxResult × Hw)
  | [], _ => none
  | a :: as, h =>
    let h := { h with rx := h.rx ++ a }
    if rxComplete h then
      let r := getResult h
      let d := readInternal h
      some ((d.1 : Int), r, d.2)
    else rxReadResult as h
/-- `Flush` (UsartReceive.h 107-114) polling the same way. -/
def rxFlush : List (List Frame) → Hw → Option Hw
  | [], _ => none
  | a :: as, h =>
    let h := { h with rx := h.rx ++ a }
    if !rxComplete h then rxFlush as h.readUDR.2 else some h

/-! ### UsartOutputStream.h, T = uint8_t -/
/-- `UsartOutputStream` over `UsartTransmit` (AVR/UsartOutputStream.h 40-110). -/
structure OutStream where
  buf : RingBuffer.RB Nat
  hw : Hw

namespace OutStream
/-- First statement of `Write` (UsartOutputStream.h 66). -/
def writeBuffer (v : Nat) (s : OutStream) : Res (OutStream × Bool) := do
  let (b, r) ← RingBuffer.write s.buf v
  .ok ({ s with buf := b }, r)
/-- Second statement of `Write` (UsartOutputStream.h 67, UsartTransmit.h 122-125). -/
def enable (s : OutStream) : OutStream := { s with hw := s.hw.bitB 5 true }
/-- `OnAcceptDataInterrupt` (UsartOutputStream.h 74-86). -/
def isr (s : OutStream) : Res OutStream :=
  if RingBuffer.getLength s.buf ≠ 0 then do
    let (b, v) ← RingBuffer.read s.buf
    .ok { buf := b, hw := writeInternal v s.hw }
  else .ok { s with hw := s.hw.bitB 5 false }
/-- `getLength` (UsartOutputStream.h 47-50) returns `uint8_t`. -/
def getLength (s : OutStream) : Nat := RingBuffer.getLength s.buf % 256
/-- The first store of `Clear` (RingBuffer.h 52); the handler can run before the second one. -/
def clearFirst (s : OutStream) : OutStream := { s with buf := { s.buf with w := 0 } }
/-- The second store of `Clear` (RingBuffer.h 53). -/
def clearSecond (s : OutStream) : OutStream := { s with buf := { s.buf with r := 0 } }
/-- `Flush` (UsartOutputStream.h 54-58): empties the buffer, then waits as `txFlush`. -/
def flush (fuel : Nat) (s : OutStream) : Option OutStream := (txFlush fuel s.hw).map fun h => { buf := RingBuffer.clear s.buf, hw := h }
/-- `Close` (UsartOutputStream.h 99-103, UsartTransmit.h 184-189). -/
def close (s : OutStream) : OutStream :=
  { buf := RingBuffer.clear s.buf, hw := ((s.hw.bitB 6 false).bitB 5 false).bitB 3 false }
end OutStream

/-! #### `Write` as main code, in the steps between which an interrupt can come: the buffer write (one step here, its inside is the subject of
    RingBuffer/C04), then load and store of `UCSRB &= ~mask` and of `UCSRB |= mask` (Bit.h 55-67; UCSRB lies outside the range of the one-instruction
    bit operations). -/
/-- Where main code is inside `Write` (AVR/UsartOutputStream.h 64-68). -/
inductive Phase where
  | idle
  | buffered
  | loaded1 (v : BitVec 8)
  | cleared
  | loaded2 (v : BitVec 8)
  deriving DecidableEq, Repr

/-- The stream, where main code is inside `Write`, and (history) the bytes the buffer accepted (AVR/UsartOutputStream.h 40-110). -/
structure OutSys where
  s : OutStream
  phase : Phase
  accepted : List Nat

/-- What can happen next (AVR/UsartOutputStream.h 64-86). -/
inductive OutEv where
  /-- main code calls `Write(v)` -/
  | write (v : BitVec 8)
  /-- main code executes the next load or store of `Write` -/
  | main
  /-- the data register empty interrupt, if enabled and pending -/
  | isr
  /-- the hardware ends a frame -/
  | frame
  /-- the hardware starts a frame with an idle shift register -/
  | load
  deriving DecidableEq, Repr

namespace OutSys
/-- One event; an event that cannot occur changes nothing (AVR/UsartOutputStream.h 64-86, AVR/UsartInputStream.h 48-90). -/
def step (y : OutSys) : OutEv → Res OutSys
  | .write v => match y.phase with
    | .idle => do
      let (s, r) ← y.s.writeBuffer v.toNat
      .ok { s := s, phase := .buffered, accepted := if r then y.accepted ++ [v.toNat] else y.accepted }
    | _ => .ok y
  | .main => match y.phase with
    | .idle => .ok y
    | .buffered => .ok { y with phase := .loaded1 y.s.hw.readB }
    | .loaded1 v => .ok { y with s := { y.s with hw := y.s.hw.writeB (clearBit 5 v) }, phase := .cleared }
    | .cleared => .ok { y with phase := .loaded2 y.s.hw.readB }
    | .loaded2 v => .ok { y with s := { y.s with hw := y.s.hw.writeB (setBit 5 v) }, phase := .idle }
  | .isr => if isTrue 5 y.s.hw.ucsrb && getAcceptData y.s.hw then do
      let s ← y.s.isr
      .ok { y with s := s }
    else .ok y
  | .frame => .ok { y with s := { y.s with hw := y.s.hw.frameTime } }
  | .load => .ok { y with s := { y.s with hw := y.s.hw.load } }

/-- A history (AVR/UsartOutputStream.h 64-86, AVR/UsartInputStream.h 48-90). -/
def run (y : OutSys) : List OutEv → Res OutSys
  | [] => .ok y
  | e :: es => do let y ← step y e; run y es
end OutSys

/-! ### UsartInputStream.h, T = uint8_t -/
/-- `UsartInputStream` over `UsartReceive` (AVR/UsartInputStream.h 41-112). -/
structure InStream where
  buf : RingBuffer.RB Nat
  hw : Hw

namespace InStream
/-- `Read` (UsartInputStream.h 67-76). -/
def read (s : InStream) : Res (InStream × Int) :=
  if RingBuffer.getLength s.buf > 0 then do
    let (b, v) ← RingBuffer.read s.buf
    .ok ({ s with buf := b }, (v : Int))
  else .ok ({ s with hw := rxSetInterrupt true s.hw }, -1)
/-- `OnIsCompleteInterrupt` (UsartInputStream.h 81-88); the cast to `T` keeps eight bits. -/
def isr (s : InStream) : Res InStream :=
  let r := getResult s.hw
  let d := readInternal s.hw
  if r = .success then do
    let (b, _) ← RingBuffer.write s.buf (d.1 % 256)
    .ok { buf := b, hw := d.2 }
  else .ok { s with hw := d.2 }
end InStream

/-- The input stream in operation: `returned` what `Read` returned other than -1 and `kept` the frames the hardware received (history) (AVR/UsartInputStream.h 41-112). -/
structure InSys where
  s : InStream
  returned : List Nat
  kept : List Frame

/-- What can happen to it (AVR/UsartInputStream.h 48-90). -/
inductive InEv where
  /-- the line delivers a frame -/
  | arrive (f : Frame)
  /-- the receive complete interrupt, if enabled and pending -/
  | isr
  /-- main code calls `Read` -/
  | read
  deriving DecidableEq, Repr

namespace InSys
/-- One event. A frame is kept if the receiver is on and the FIFO (two frames and the shift register) has room (AVR/UsartOutputStream.h 64-86, AVR/UsartInputStream.h 48-90). -/
def step (y : InSys) : InEv → Res InSys
  | .arrive f => .ok (if isTrue 4 y.s.hw.ucsrb && decide (y.s.hw.rx.length < 3) then
      { y with s := { y.s with hw := { y.s.hw with rx := y.s.hw.rx ++ [f] } }, kept := y.kept ++ [f] } else y)
  | .isr => if isTrue 7 y.s.hw.ucsrb && rxComplete y.s.hw then do
      let s ← y.s.isr
      .ok { y with s := s }
    else .ok y
  | .read => do
    let (s, r) ← y.s.read
    .ok { y with s := s, returned := if r = -1 then y.returned else y.returned ++ [r.toNat] }

/-- A history (AVR/UsartOutputStream.h 64-86, AVR/UsartInputStream.h 48-90). -/
def run (y : InSys) : List InEv → Res InSys
  | [] => .ok y
  | e :: es => do let y ← step y e; run y es
end InSys

end Atl.Usart
