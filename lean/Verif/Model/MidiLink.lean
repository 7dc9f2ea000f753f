import Verif.Model.Midi
import Verif.Model.Usart

/-!
  A `MidiWriter` on a `UsartOutputStream` of one microcontroller, a wire, and a `MidiReader` on a `UsartInputStream` of another one: the intended use of the
  four classes together. Both programs and the four kinds of hardware event run in any order. The wire is without errors and the two sides use
  the same frame format; a frame that leaves the sender's shift register arrives in the receiver's FIFO.
-/
namespace Atl.MidiLink
open Atl.Midi Atl.Usart

/-- The two sides. `todo`: the bytes the running call of MidiWriter::Write still hands to `BaseT::Write`; `sent`, `raised`: history (MidiWriter.h 48-89, MidiReader.h 53-68). -/
structure Link where
  tx : OutSys
  rx : InSys
  running : Nat
  todo : List Nat
  sent : List WCall
  rd : Reader
  raised : List Ev

/-- What can happen next (MidiWriter.h 48-89, MidiReader.h 53-68). -/
inductive LinkEv where
  /-- the sender's main code calls MidiWriter::Write -/
  | send (c : WCall)
  /-- the sender's main code goes on inside MidiWriter::Write -/
  | main
  /-- the sender's data register empty interrupt -/
  | txIsr
  /-- the idle shift register takes a byte -/
  | load
  /-- a frame ends -/
  | frame
  /-- the receiver's receive complete interrupt -/
  | rxIsr
  /-- the receiver's main code calls MidiReader::Read -/
  | poll

namespace Link
/-- `MidiReader::Read` (MidiReader.h 53-68) on `UsartInputStream` (UsartInputStream.h 48-51, 67-76); the value is cast to `uint8_t` (MidiReader.h 63). -/
def poll (L : Layout) (k : Link) : Res Link :=
  if RingBuffer.getLength k.rx.s.buf > 0 then do
    let (s, v) ← k.rx.s.read
    if v ≠ -1 then
      let (rd, ev, _) := k.rd.dispatch L (v.toNat % 256)
      .ok { k with rx := { k.rx with s := s, returned := k.rx.returned ++ [v.toNat] }, rd := rd, raised := k.raised ++ ev }
    else .ok { k with rx := { k.rx with s := s } }
  else .ok k

/-- One event. A call of MidiWriter::Write (MidiWriter.h 48-88, 93-96) computes its bytes from the running status and then passes them one by one to
    UsartOutputStream::Write (UsartOutputStream.h 64-68), whose steps are those of `OutSys`. -/
def step (L : Layout) (k : Link) : LinkEv → Res Link
  | .send c => .ok (if k.tx.phase = .idle ∧ k.todo = [] then
      { k with running := (writeCall L k.running c).1, todo := (writeCall L k.running c).2, sent := k.sent ++ [c] } else k)
  | .main => match k.tx.phase, k.todo with
    | .idle, b :: bs => do let t ← k.tx.step (.write (BitVec.ofNat 8 b)); .ok { k with tx := t, todo := bs }
    | _, _ => do let t ← k.tx.step .main; .ok { k with tx := t }
  | .txIsr => do let t ← k.tx.step .isr; .ok { k with tx := t }
  | .load => do let t ← k.tx.step .load; .ok { k with tx := t }
  | .frame => do
    let t ← k.tx.step .frame
    match k.tx.s.hw.shift with
    | some v => do let r ← k.rx.step (.arrive { data := v }); .ok { k with tx := t, rx := r }
    | none => .ok { k with tx := t }
  | .rxIsr => do let r ← k.rx.step .isr; .ok { k with rx := r }
  | .poll => k.poll L

/-- A history (MidiWriter.h 48-89, MidiReader.h 53-68). -/
def run (L : Layout) (k : Link) : List LinkEv → Res Link
  | [] => .ok k
  | e :: es => do let k ← step L k e; run L k es

/-- Both sides just constructed (MidiWriter.h 40-42, MidiReader.h 42-44); `g`, `h` the uninitialised buffer memory, `b`, `c` the control registers after opening. -/
def init (g h : List Nat) (b c : BitVec 8) : Link :=
  { tx := { s := { buf := RingBuffer.mk g, hw := { ucsrb := b } }, phase := .idle, accepted := [] }
    rx := { s := { buf := RingBuffer.mk h, hw := { ucsrb := c } }, returned := [], kept := [] }
    running := 0, todo := [], sent := [], rd := Reader.init, raised := [] }
end Link
end Atl.MidiLink
