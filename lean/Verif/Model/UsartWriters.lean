import Verif.Model.Usart

/-
  `UsartOutputStream` written by main code and by interrupt handlers (AVR/UsartOutputStream.h 64-86): `Write` of main code access by access, the ring buffer's `Write` included (RingBuffer.h 61-79),
  then the two read-modify-writes of UCSRnB that turn the interrupt on (UsartTransmit.h 122-125, Bit.h 55-67).  Handlers run as a whole: the data register empty handler of the stream, and others that
  call `Write`.
  Simplified: the pointers of the buffer are loaded and stored in one step (bytewise: C107, C138).
-/
namespace Atl.UsartWriters
open Atl.Usart Atl.RingBuffer

/-- Where main code is in `Write` (AVR/UsartOutputStream.h 64-68); `p` is the pointer loaded at its start. -/
inductive Pc where
  /-- Outside. -/
  | idle
  /-- Behind the overrun test (RingBuffer.h 64-68). -/
  | checked (v p : Nat)
  /-- Behind `*_writePtr = value` (RingBuffer.h 70). -/
  | stored (v p : Nat)
  /-- Behind `_buffer.Write` (AVR/UsartOutputStream.h 66). -/
  | buffered
  /-- Before the store of `UCSRB &= ~mask` (UsartTransmit.h 122-125, Bit.h 55-67). -/
  | loaded1 (v : BitVec 8)
  /-- Before the load of `UCSRB |= mask` (UsartTransmit.h 122-125, Bit.h 55-67). -/
  | cleared
  /-- Before its store (UsartTransmit.h 122-125, Bit.h 55-67). -/
  | loaded2 (v : BitVec 8)
  deriving DecidableEq, Repr

/-- The stream, the place of main code, and as a history variable the completed writes to the buffer: of main code (`true`) or a handler, the byte, whether there was room
    (AVR/UsartOutputStream.h 64-68). -/
structure St where
  s : OutStream
  pc : Pc
  log : List (Bool × Nat × Bool)

/-- What happens (AVR/UsartOutputStream.h 64-86). -/
inductive Ev where
  /-- Main code calls `Write(v)` (AVR/UsartOutputStream.h 64), up to the overrun test (RingBuffer.h 64-68). -/
  | write (v : BitVec 8)
  /-- Main code makes its next access (AVR/UsartOutputStream.h 66-67). -/
  | main
  /-- The data register empty interrupt, if enabled and pending (AVR/UsartOutputStream.h 74-86). -/
  | isr
  /-- The hardware ends a frame (the USART registers of AVR/UsartRegisters.h 52-98). -/
  | frame
  /-- The hardware starts a frame with an idle shift register (the USART registers of AVR/UsartRegisters.h 52-98). -/
  | load
  /-- Another handler calls `Write(v)` (AVR/UsartOutputStream.h 64-68). -/
  | handler (v : BitVec 8)
  deriving DecidableEq, Repr

variable (keep : Bool)

/-- The pointer main code uses: the one loaded at the start of the call, or the member loaded again (RingBuffer.h 70-71). -/
def pointer (p member : Nat) : Nat := if keep then p else member

/-- Main code enters `Write` (AVR/UsartOutputStream.h 64-66, RingBuffer.h 61-68). -/
def begin (y : St) (v : Nat) : St :=
  if isFull y.s.buf then { y with pc := .buffered, log := y.log ++ [(true, v, false)] }
  else { y with pc := .checked v y.s.buf.w }

/-- One access of main code (AVR/UsartOutputStream.h 66-67, RingBuffer.h 70-76). -/
def mainStep (y : St) : Res St :=
  match y.pc with
  | .idle => .ok y
  | .checked v p => do
    let b ← cSet y.s.buf.buf (pointer keep p y.s.buf.w) v
    .ok { y with s := { y.s with buf := { y.s.buf with buf := b } }, pc := .stored v p }
  | .stored v p =>
    .ok { s := { y.s with buf := { y.s.buf with w := wrap y.s.buf.size (pointer keep p y.s.buf.w + 1) } }, pc := .buffered, log := y.log ++ [(true, v, true)] }
  | .buffered => .ok { y with pc := .loaded1 y.s.hw.readB }
  | .loaded1 v => .ok { y with s := { y.s with hw := y.s.hw.writeB (clearBit 5 v) }, pc := .cleared }
  | .cleared => .ok { y with pc := .loaded2 y.s.hw.readB }
  | .loaded2 v => .ok { y with s := { y.s with hw := y.s.hw.writeB (setBit 5 v) }, pc := .idle }

/-- One event; an event that cannot occur changes nothing (AVR/UsartOutputStream.h 64-86). -/
def step (y : St) : Ev → Res St
  | .write v => .ok (if y.pc = .idle then begin y v.toNat else y)
  | .main => mainStep keep y
  | .isr =>
    if isTrue 5 y.s.hw.ucsrb && getAcceptData y.s.hw then do
      let s ← y.s.isr
      .ok { y with s := s }
    else .ok y
  | .frame => .ok { y with s := { y.s with hw := y.s.hw.frameTime } }
  | .load => .ok { y with s := { y.s with hw := y.s.hw.load } }
  | .handler v => do
    let (s, r) ← y.s.writeBuffer v.toNat
    .ok { y with s := s.enable, log := y.log ++ [(false, v.toNat, r)] }

/-- A history (AVR/UsartOutputStream.h 64-86). -/
def run (y : St) : List Ev → Res St
  | [] => .ok y
  | e :: es => do
    let y ← step keep y e
    run y es

/-- Constructed on a transmitter with nothing to send; `g` the memory of the buffer, `b` the control register (AVR/UsartOutputStream.h 40-110). -/
def St.init (g : List Nat) (b : BitVec 8) : St := ⟨{ buf := RingBuffer.mk g, hw := { ucsrb := b } }, .idle, []⟩

end Atl.UsartWriters
