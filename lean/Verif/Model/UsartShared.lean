import Verif.Model.Usart

/-
  Both streams of one USART used by main code and by interrupt handlers (AVR/UsartOutputStream.h 64-86, AVR/UsartInputStream.h 67-88): `Write` and `Read` of main code access by access, the ring
  buffers' `Write` and `Read` included (RingBuffer.h 61-96), and the two read-modify-writes of the one control register UCSRnB with which `Write` turns the data register empty interrupt on (bit 5,
  UsartTransmit.h 122-125) and `Read` the receive complete interrupt (bit 7, UsartReceive.h 76-79), both through Bit.h 55-67.  Handlers run as a whole: those of the streams, and others that call
  `Write` or `Read`.
  Simplified: `getLength` is one step, pointers are loaded and stored in one step (bytewise: C107, C138).
-/
namespace Atl.UsartShared
open Atl.Usart Atl.RingBuffer

/-- Where main code is in `Bit<i>::Set(UCSRB, true)` (Bit.h 55-67). -/
inductive Rmw where
  /-- Before it. -/
  | start
  /-- Before the store of `UCSRB &= ~mask`. -/
  | loaded1 (v : BitVec 8)
  /-- Before the load of `UCSRB |= mask`. -/
  | cleared
  /-- Before its store. -/
  | loaded2 (v : BitVec 8)
  deriving DecidableEq, Repr

/-- Where main code is (AVR/UsartOutputStream.h 64-68, AVR/UsartInputStream.h 67-76); `p` is the pointer loaded at the start of the call. -/
inductive Pc where
  /-- Outside of both streams. -/
  | idle
  /-- `Write`, behind the overrun test (RingBuffer.h 64-68). -/
  | checked (v p : Nat)
  /-- `Write`, behind `*_writePtr = value` (RingBuffer.h 70). -/
  | stored (v p : Nat)
  /-- `Write`, behind `_buffer.Write` (AVR/UsartOutputStream.h 67). -/
  | wEnable (m : Rmw)
  /-- `Read`, behind `getLength`, not zero (AVR/UsartInputStream.h 69). -/
  | counted (p : Nat)
  /-- `Read`, behind `T result = *_readPtr` (RingBuffer.h 87). -/
  | got (v p : Nat)
  /-- `Read`, behind `getLength`, zero (AVR/UsartInputStream.h 74). -/
  | rEnable (m : Rmw)
  deriving DecidableEq, Repr

/-- The two buffers, the USART, the place of main code; as history variables the frames received, the completed writes to the buffer (of main code: `true`; the byte; whether there was room) and the
    results of completed reads (AVR/UsartOutputStream.h 64-86, AVR/UsartInputStream.h 67-88). -/
structure St where
  out : RB Nat
  inn : RB Nat
  hw : Hw
  pc : Pc
  kept : List Frame
  wlog : List (Bool × Nat × Bool)
  rlog : List (Bool × Int)

/-- What happens (AVR/UsartOutputStream.h 64-86, AVR/UsartInputStream.h 67-88). -/
inductive Ev where
  /-- Main code calls `Write(v)`, up to the overrun test (AVR/UsartOutputStream.h 64-66). -/
  | write (v : BitVec 8)
  /-- Main code calls `Read`, up to the test (AVR/UsartInputStream.h 67-69). -/
  | read
  /-- Main code makes its next access (AVR/UsartOutputStream.h 66-67, AVR/UsartInputStream.h 71-75). -/
  | main
  /-- The data register empty interrupt, if enabled and pending (AVR/UsartOutputStream.h 74-86). -/
  | txIsr
  /-- The receive complete interrupt, if enabled and pending (AVR/UsartInputStream.h 81-88). -/
  | rxIsr
  /-- The line delivers a frame (the USART registers of AVR/UsartRegisters.h 52-98). -/
  | arrive (f : Frame)
  /-- The hardware ends a frame (the USART registers of AVR/UsartRegisters.h 52-98). -/
  | frame
  /-- The hardware starts a frame with an idle shift register (the USART registers of AVR/UsartRegisters.h 52-98). -/
  | load
  /-- Another handler calls `Write(v)` (AVR/UsartOutputStream.h 64-68). -/
  | hWrite (v : BitVec 8)
  /-- Another handler calls `Read` (AVR/UsartInputStream.h 67-76). -/
  | hRead
  deriving DecidableEq, Repr

variable (keep : Bool)

/-- The pointer main code uses: the one loaded at the start of the call, or the member loaded again (RingBuffer.h 70-71, 87-88). -/
def pointer (p member : Nat) : Nat := if keep then p else member

/-- Main code enters `Write` (AVR/UsartOutputStream.h 64-66, RingBuffer.h 61-68). -/
def beginWrite (y : St) (v : Nat) : St :=
  if isFull y.out then { y with pc := .wEnable .start, wlog := y.wlog ++ [(true, v, false)] }
  else { y with pc := .checked v y.out.w }

/-- Main code enters `Read` (AVR/UsartInputStream.h 67-69). -/
def beginRead (y : St) : St := if getLength y.inn > 0 then { y with pc := .counted y.inn.r } else { y with pc := .rEnable .start }

/-- One access of `Bit<i>::Set(UCSRB, true)`: the register, and where main code is then, `none` behind it (Bit.h 55-67). -/
def rmw (i : Nat) (h : Hw) : Rmw → Hw × Option Rmw
  | .start => (h, some (.loaded1 h.readB))
  | .loaded1 v => (h.writeB (clearBit i v), some .cleared)
  | .cleared => (h, some (.loaded2 h.readB))
  | .loaded2 v => (h.writeB (setBit i v), none)

/-- One access of main code (AVR/UsartOutputStream.h 66-67, AVR/UsartInputStream.h 71-75, RingBuffer.h 70-76 and 87-93). -/
def mainStep (y : St) : Res St :=
  match y.pc with
  | .idle => .ok y
  | .checked v p => do
    let b ← cSet y.out.buf (pointer keep p y.out.w) v
    .ok { y with out := { y.out with buf := b }, pc := .stored v p }
  | .stored v p => .ok { y with out := { y.out with w := wrap y.out.size (pointer keep p y.out.w + 1) }, pc := .wEnable .start, wlog := y.wlog ++ [(true, v, true)] }
  | .wEnable m =>
    let r := rmw 5 y.hw m
    .ok (match r.2 with
      | some m => { y with hw := r.1, pc := .wEnable m }
      | none => { y with hw := r.1, pc := .idle })
  | .counted p => do
    let v ← cGet y.inn.buf (pointer keep p y.inn.r)
    .ok { y with pc := .got v p }
  | .got v p => .ok { y with inn := { y.inn with r := wrap y.inn.size (pointer keep p y.inn.r + 1) }, pc := .idle, rlog := y.rlog ++ [(true, (v : Int))] }
  | .rEnable m =>
    let r := rmw 7 y.hw m
    .ok (match r.2 with
      | some m => { y with hw := r.1, pc := .rEnable m }
      | none => { y with hw := r.1, pc := .idle, rlog := y.rlog ++ [(true, -1)] })

/-- One event; an event that cannot occur changes nothing. A frame is kept if the receiver is on and the FIFO (two frames and the shift register) has room (AVR/UsartOutputStream.h 64-86,
    AVR/UsartInputStream.h 67-88). -/
def step (y : St) : Ev → Res St
  | .write v => .ok (if y.pc = .idle then beginWrite y v.toNat else y)
  | .read => .ok (if y.pc = .idle then beginRead y else y)
  | .main => mainStep keep y
  | .txIsr =>
    if isTrue 5 y.hw.ucsrb && getAcceptData y.hw then do
      let s ← OutStream.isr ⟨y.out, y.hw⟩
      .ok { y with out := s.buf, hw := s.hw }
    else .ok y
  | .rxIsr =>
    if isTrue 7 y.hw.ucsrb && rxComplete y.hw then do
      let s ← InStream.isr ⟨y.inn, y.hw⟩
      .ok { y with inn := s.buf, hw := s.hw }
    else .ok y
  | .arrive f => .ok (if isTrue 4 y.hw.ucsrb && decide (y.hw.rx.length < 3) then
      { y with hw := { y.hw with rx := y.hw.rx ++ [f] }, kept := y.kept ++ [f] } else y)
  | .frame => .ok { y with hw := y.hw.frameTime }
  | .load => .ok { y with hw := y.hw.load }
  | .hWrite v => do
    let (s, r) ← OutStream.writeBuffer v.toNat ⟨y.out, y.hw⟩
    .ok { y with out := s.enable.buf, hw := s.enable.hw, wlog := y.wlog ++ [(false, v.toNat, r)] }
  | .hRead => do
    let (s, r) ← InStream.read ⟨y.inn, y.hw⟩
    .ok { y with inn := s.buf, hw := s.hw, rlog := y.rlog ++ [(false, r)] }

/-- A history (AVR/UsartOutputStream.h 64-86, AVR/UsartInputStream.h 67-88). -/
def run (y : St) : List Ev → Res St
  | [] => .ok y
  | e :: es => do
    let y ← step keep y e
    run y es

/-- Both streams constructed, nothing being sent or received; `g1`, `g2` the memory of the buffers, `b` the control register (AVR/UsartOutputStream.h 40-110, AVR/UsartInputStream.h 41-112). -/
def St.init (g1 g2 : List Nat) (b : BitVec 8) : St := ⟨RingBuffer.mk g1, RingBuffer.mk g2, { ucsrb := b }, .idle, [], [], []⟩

end Atl.UsartShared
