import Verif.Model.TextSketch
import Verif.Model.Usart

/-!
  A `TextWriter` on the interrupt driven `UsartOutputStream` of the AVR: the characters of `WriteLine` calls (TextWriter.h 175-226) go one by one to
  `UsartOutputStream::Write` (AVR/UsartOutputStream.h 64-68), while the data register empty interrupt and the transmitter go on at any moment.
-/
namespace Atl.TextUsart
open Atl.TextSketch Atl.Text Atl.Usart

/-- The characters of a sequence of `WriteLine` calls (TextWriter.h 175-226); they do not depend on the stream. -/
def lines (rnd : Rat → Rat) (f : Format) : List Item → Res (List Nat)
  | [] => .ok []
  | i :: is => do
    let b ← writeItem rnd f i
    let bs ← lines rnd f is
    .ok (b ++ bs)

/-- The stream and the characters main code still hands to `BaseT::Write` (TextWriter.h 57-66, AVR/UsartOutputStream.h 40-110). -/
structure Console where
  tx : OutSys
  todo : List Nat

/-- What can happen next (TextWriter.h 57-66, AVR/UsartOutputStream.h 64-86). -/
inductive ConEv where
  /-- main code goes on -/
  | main
  /-- the data register empty interrupt, if enabled and pending -/
  | isr
  /-- a frame ends -/
  | frame
  /-- the idle shift register takes a byte -/
  | load
  deriving DecidableEq, Repr

namespace Console
/-- One event: main code calls UsartOutputStream::Write with the next character when it is not inside the previous call (TextWriter.h 57-66,
    AVR/UsartOutputStream.h 64-68); the parameter is a byte. -/
def step (k : Console) : ConEv → Res Console
  | .main => match k.tx.phase, k.todo with
    | .idle, c :: cs => do let t ← k.tx.step (.write (BitVec.ofNat 8 c)); .ok { tx := t, todo := cs }
    | _, _ => do let t ← k.tx.step .main; .ok { k with tx := t }
  | .isr => do let t ← k.tx.step .isr; .ok { k with tx := t }
  | .frame => do let t ← k.tx.step .frame; .ok { k with tx := t }
  | .load => do let t ← k.tx.step .load; .ok { k with tx := t }

/-- A history (TextWriter.h 57-66, AVR/UsartOutputStream.h 64-86). -/
def run (k : Console) : List ConEv → Res Console
  | [] => .ok k
  | e :: es => do let k ← step k e; run k es

/-- The stream just constructed, `g` the uninitialised buffer memory and `b` the control register after opening (AVR/UsartOutputStream.h 40-62), before the first call. -/
def init (g : List Nat) (b : BitVec 8) (text : List Nat) : Console :=
  { tx := { s := { buf := RingBuffer.mk g, hw := { ucsrb := b } }, phase := .idle, accepted := [] }, todo := text }
end Console
end Atl.TextUsart
