import Verif.Model.Usart

/-
  `UsartInputStream` read by main code and by interrupt handlers (AVR/UsartInputStream.h 67-88): `Read` of main code access by access, the ring buffer's `Read` included (RingBuffer.h 85-96),
  and on an empty buffer the two read-modify-writes of UCSRnB that turn the receive interrupt on (UsartReceive.h 76-79, Bit.h 55-67).  Handlers run as a whole: the receive handler of the stream, and
  others that call `Read`.
  Simplified: `getLength` is one step, the pointers of the buffer are loaded and stored in one step (bytewise: C107, C138).
-/
namespace Atl.UsartReaders
open Atl.Usart Atl.RingBuffer

/-- Where main code is in `Read` (AVR/UsartInputStream.h 67-76); `p` is the pointer loaded at its start. -/
inductive Pc where
  /-- Outside. -/
  | idle
  /-- Behind `getLength`, not zero (AVR/UsartInputStream.h 69). -/
  | counted (p : Nat)
  /-- Behind `T result = *_readPtr` (RingBuffer.h 87). -/
  | got (v p : Nat)
  /-- Behind `getLength`, zero (AVR/UsartInputStream.h 69). -/
  | empty
  /-- Before the store of `UCSRB &= ~mask` (AVR/UsartInputStream.h 74, Bit.h 55-67). -/
  | loaded1 (v : BitVec 8)
  /-- Before the load of `UCSRB |= mask` (AVR/UsartInputStream.h 74, Bit.h 55-67). -/
  | cleared
  /-- Before its store (AVR/UsartInputStream.h 74, Bit.h 55-67). -/
  | loaded2 (v : BitVec 8)
  deriving DecidableEq, Repr

/-- The stream, the place of main code; as history variables the frames received, the results of completed calls of main code (`true`) and handlers (AVR/UsartInputStream.h 67-88). -/
structure St where
  s : InStream
  pc : Pc
  kept : List Frame
  log : List (Bool × Int)

/-- What happens (AVR/UsartInputStream.h 67-88). -/
inductive Ev where
  /-- Main code calls `Read`, up to the test (AVR/UsartInputStream.h 67-69). -/
  | read
  /-- Main code makes its next access (AVR/UsartInputStream.h 71-75). -/
  | main
  /-- The line delivers a frame (the USART registers of AVR/UsartRegisters.h 52-98). -/
  | arrive (f : Frame)
  /-- The receive complete interrupt, if enabled and pending (AVR/UsartInputStream.h 81-88). -/
  | isr
  /-- Another handler calls `Read` (AVR/UsartInputStream.h 67-76). -/
  | handler
  deriving DecidableEq, Repr

variable (keep : Bool)

/-- The pointer main code uses: the one loaded at the start of the call, or the member loaded again (RingBuffer.h 87-88). -/
def pointer (p member : Nat) : Nat := if keep then p else member

/-- Main code enters `Read` (AVR/UsartInputStream.h 67-69). -/
def begin (y : St) : St := if getLength y.s.buf > 0 then { y with pc := .counted y.s.buf.r } else { y with pc := .empty }

/-- One access of main code (AVR/UsartInputStream.h 71-75, RingBuffer.h 87-93). -/
def mainStep (y : St) : Res St :=
  match y.pc with
  | .idle => .ok y
  | .counted p => do
    let v ← cGet y.s.buf.buf (pointer keep p y.s.buf.r)
    .ok { y with pc := .got v p }
  | .got v p =>
    .ok { y with s := { y.s with buf := { y.s.buf with r := wrap y.s.buf.size (pointer keep p y.s.buf.r + 1) } }, pc := .idle, log := y.log ++ [(true, (v : Int))] }
  | .empty => .ok { y with pc := .loaded1 y.s.hw.readB }
  | .loaded1 v => .ok { y with s := { y.s with hw := y.s.hw.writeB (clearBit 7 v) }, pc := .cleared }
  | .cleared => .ok { y with pc := .loaded2 y.s.hw.readB }
  | .loaded2 v => .ok { y with s := { y.s with hw := y.s.hw.writeB (setBit 7 v) }, pc := .idle, log := y.log ++ [(true, -1)] }

/-- One event; an event that cannot occur changes nothing. A frame is kept if the receiver is on and the FIFO (two frames and the shift register) has room (AVR/UsartInputStream.h 67-88). -/
def step (y : St) : Ev → Res St
  | .read => .ok (if y.pc = .idle then begin y else y)
  | .main => mainStep keep y
  | .arrive f => .ok (if isTrue 4 y.s.hw.ucsrb && decide (y.s.hw.rx.length < 3) then
      { y with s := { y.s with hw := { y.s.hw with rx := y.s.hw.rx ++ [f] } }, kept := y.kept ++ [f] } else y)
  | .isr =>
    if isTrue 7 y.s.hw.ucsrb && rxComplete y.s.hw then do
      let s ← y.s.isr
      .ok { y with s := s }
    else .ok y
  | .handler => do
    let (s, r) ← y.s.read
    .ok { y with s := s, log := y.log ++ [(false, r)] }

/-- A history (AVR/UsartInputStream.h 67-88). -/
def run (y : St) : List Ev → Res St
  | [] => .ok y
  | e :: es => do
    let y ← step keep y e
    run y es

/-- Constructed on a receiver with an empty FIFO; `g` the memory of the buffer, `b` the control register (AVR/UsartInputStream.h 41-112). -/
def St.init (g : List Nat) (b : BitVec 8) : St := ⟨{ buf := RingBuffer.mk g, hw := { ucsrb := b } }, .idle, [], []⟩

end Atl.UsartReaders
