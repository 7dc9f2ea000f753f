import Verif.Model.Usart
/-
  `AVR/UsartOutputStream.h` and `AVR/UsartInputStream.h` on one USART, used by one main program and both interrupt
  handlers, at the level of single memory accesses: main code stands inside `RingBuffer::Write` (RingBuffer.h
  61-79), `getLength` and `Read` (85-109), or between the loads and stores of `Bit<..>::Set` on the shared control
  register UCSRB (Bit.h 55-67), and a handler can run at any such place.  The handlers are those of `Model/Usart.lean`
  and run to completion (AVR interrupts do not nest).

  Simplifications: T = uint8_t; pointers are loaded and stored undivided (see `RingBufferTorn.lean`); `lim` is the
  number of times the handler of a stream can run between the increment of a pointer and its wrap (a few
  instructions; a frame takes hundreds).
-/
namespace Atl.Usart

/-- Where main code is in `Bit<i>::Set(UCSRB, true)`: `&= ~mask` and `|= mask`, each a load and a store (Bit.h 38-117, called by AVR/UsartTransmit.h 122-126). -/
inductive Rmw where
  | start
  | loaded1 (v : BitVec 8)
  | cleared
  | loaded2 (v : BitVec 8)
  deriving DecidableEq, Repr

/-- Where main code is (AVR/UsartOutputStream.h 64-86, AVR/UsartInputStream.h 64-90). -/
inductive DPc where
  | idle
  /-- in `RingBuffer::Write`: overrun test passed (64-68) -/
  | wChecked (v : Nat)
  /-- slot stored (70) -/
  | wStored (v : Nat)
  /-- `_writePtr++` done (71), wrap (73-76) to come; the handler has run `k` times since -/
  | wPast (k : Nat)
  /-- in `Bit<i>::Set`: 5 (UDRIE) at the end of `Write`, 7 (RXCIE) at the end of a `Read` of nothing -/
  | rmw (i : Nat) (p : Rmw)
  /-- in `getLength`: `_writePtr >= _readPtr` evaluated (103) -/
  | rLoaded (ge : Bool)
  /-- length not zero -/
  | rReady
  /-- slot loaded (87) -/
  | rGot (v : Nat)
  /-- `_readPtr++` done (88), wrap (90-93) to come; the handler has run `k` times since -/
  | rPast (v : Nat) (k : Nat)
  deriving DecidableEq, Repr

/-- Both streams, and as history the bytes accepted by `Write`, the bytes returned by `Read`, the frames the receiver
    kept, whether a `Read` has returned -1, and how many bytes the receive handler could not put into the buffer (AVR/UsartOutputStream.h 64-86, AVR/UsartInputStream.h 64-90). -/
structure Duplex where
  out : RingBuffer.RB Nat
  inn : RingBuffer.RB Nat
  hw : Hw
  pc : DPc
  accepted : List Nat
  returned : List Nat
  kept : List Frame
  asked : Bool
  lost : Nat

/-- What can happen next (AVR/UsartOutputStream.h 64-86, AVR/UsartInputStream.h 64-90). -/
inductive DEv where
  /-- main code calls `Write(v)` of the output stream -/
  | write (v : BitVec 8)
  /-- main code calls `Read` of the input stream -/
  | read
  /-- main code goes on to its next access -/
  | main
  /-- the data register empty interrupt, if enabled and pending -/
  | txIsr
  /-- the receive complete interrupt, if enabled and pending -/
  | rxIsr
  /-- the line delivers a frame -/
  | arrive (f : Frame)
  /-- the hardware ends a frame it sends -/
  | frame
  /-- the hardware starts a frame with an idle shift register -/
  | load
  deriving DecidableEq, Repr

namespace Duplex

/-- The next access of main code (AVR/UsartOutputStream.h 64-86, AVR/UsartInputStream.h 64-90). -/
def main (d : Duplex) : Res Duplex :=
  match d.pc with
  | .idle => .ok d
  | .wChecked v => do
    let b ← cSet d.out.buf d.out.w v
    .ok { d with out := { d.out with buf := b }, pc := .wStored v }
  | .wStored v => .ok { d with out := { d.out with w := d.out.w + 1 }, accepted := d.accepted ++ [v], pc := .wPast 0 }
  | .wPast _ => .ok { d with out := { d.out with w := RingBuffer.wrap d.out.size d.out.w }, pc := .rmw 5 .start }
  | .rmw i .start => .ok { d with pc := .rmw i (.loaded1 d.hw.readB) }
  | .rmw i (.loaded1 v) => .ok { d with hw := d.hw.writeB (clearBit i v), pc := .rmw i .cleared }
  | .rmw i .cleared => .ok { d with pc := .rmw i (.loaded2 d.hw.readB) }
  | .rmw i (.loaded2 v) => .ok { d with hw := d.hw.writeB (setBit i v), pc := .idle, asked := d.asked || i == 7 }
  | .rLoaded ge =>
    let len := if ge then toU 16 ((d.inn.w : Int) - d.inn.r) else toU 16 ((d.inn.size : Int) - ((d.inn.r : Int) - d.inn.w))
    .ok { d with pc := if len = 0 then .rmw 7 .start else .rReady }
  | .rReady => do
    let v ← cGet d.inn.buf d.inn.r
    .ok { d with pc := .rGot v }
  | .rGot v => .ok { d with inn := { d.inn with r := d.inn.r + 1 }, pc := .rPast v 0 }
  | .rPast v _ => .ok { d with inn := { d.inn with r := RingBuffer.wrap d.inn.size d.inn.r }, returned := d.returned ++ [v], pc := .idle }

/-- How often the handler of the output (input) stream has run in the open window of its pointer, if any (AVR/UsartOutputStream.h 64-86, AVR/UsartInputStream.h 64-90). -/
def txWindow (d : Duplex) : Option Nat := match d.pc with | .wPast k => some k | _ => none
/-- AVR/UsartOutputStream.h 64-86, AVR/UsartInputStream.h 64-90. -/
def rxWindow (d : Duplex) : Option Nat := match d.pc with | .rPast _ k => some k | _ => none

/-- The handler of the output (input) stream has run: counted if the window is open (AVR/UsartOutputStream.h 64-86, AVR/UsartInputStream.h 64-90). -/
def txPc : DPc → DPc
  | .wPast k => .wPast (k + 1)
  | x => x
/-- AVR/UsartOutputStream.h 64-86, AVR/UsartInputStream.h 64-90. -/
def rxPc : DPc → DPc
  | .rPast v k => .rPast v (k + 1)
  | x => x

/-- One event; an event that cannot occur changes nothing (AVR/UsartOutputStream.h 64-86, AVR/UsartInputStream.h 64-90). -/
def step (lim : Nat) (d : Duplex) : DEv → Res Duplex
  | .write v => match d.pc with
    | .idle => .ok { d with pc := if RingBuffer.isFull d.out then .rmw 5 .start else .wChecked v.toNat }
    | _ => .ok d
  | .read => match d.pc with
    | .idle => .ok { d with pc := .rLoaded (decide (d.inn.w ≥ d.inn.r)) }
    | _ => .ok d
  | .main => d.main
  | .txIsr =>
    if isTrue 5 d.hw.ucsrb && getAcceptData d.hw && d.txWindow.all (· < lim) then do
      let s ← OutStream.isr { buf := d.out, hw := d.hw }
      .ok { d with out := s.buf, hw := s.hw, pc := txPc d.pc }
    else .ok d
  | .rxIsr =>
    if isTrue 7 d.hw.ucsrb && rxComplete d.hw && d.rxWindow.all (· < lim) then do
      let s ← InStream.isr { buf := d.inn, hw := d.hw }
      .ok { d with inn := s.buf, hw := s.hw, pc := rxPc d.pc,
                      lost := if getResult d.hw = .success ∧ RingBuffer.isFull d.inn = true then d.lost + 1 else d.lost }
    else .ok d
  | .arrive f => .ok (if isTrue 4 d.hw.ucsrb && decide (d.hw.rx.length < 3) then
      { d with hw := { d.hw with rx := d.hw.rx ++ [f] }, kept := d.kept ++ [f] } else d)
  | .frame => .ok { d with hw := d.hw.frameTime }
  | .load => .ok { d with hw := d.hw.load }

/-- A history (AVR/UsartOutputStream.h 64-86, AVR/UsartInputStream.h 64-90). -/
def run (lim : Nat) (d : Duplex) : List DEv → Res Duplex
  | [] => .ok d
  | e :: es => do let d ← step lim d e; run lim d es

/-- Both streams just constructed over uninitialised memory, nothing being sent or received; `b` any control register (AVR/UsartOutputStream.h 64-86, AVR/UsartInputStream.h 64-90). -/
def init (g1 g2 : List Nat) (b : BitVec 8) : Duplex :=
  { out := RingBuffer.mk g1, inn := RingBuffer.mk g2, hw := { ucsrb := b }, pc := .idle,
    accepted := [], returned := [], kept := [], asked := false, lost := 0 }

end Duplex
end Atl.Usart
