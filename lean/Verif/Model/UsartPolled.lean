import Verif.Model.Usart

/-
  The polled transmitter, `UsartTransmit` (AVR/UsartTransmit.h 147-212), used by main code and by interrupt handlers. Main code is interrupted between any two accesses of the
  registers; a handler calls `TryWrite` as a whole (a handler that waits in `Write` is one whose `TryWrite` succeeds, or that never returns).
  Simplified: nothing is received meanwhile, the nine bit mode and the enable bits do not change.
-/
namespace Atl.UsartPolled
open Atl.Usart

/-- Where main code is (AVR/UsartTransmit.h 147-204). -/
inductive Pc where
  | idle
  /-- In `WaitAcceptData` of `Write` (AVR/UsartTransmit.h 94-97, 149). -/
  | waiting (d : Nat)
  /-- Before the test of `TryWrite` (AVR/UsartTransmit.h 162). -/
  | trying (d : Nat)
  /-- The data register was empty (AVR/UsartTransmit.h 150, 168). -/
  | accepted (d : Nat)
  /-- Behind the test for nine bits (AVR/UsartTransmit.h 198). -/
  | nine (d : Nat)
  /-- Before the store of `UCSRB &= ~mask` (AVR/UsartTransmit.h 200, Bit.h 60). -/
  | loaded1 (d : Nat) (v : BitVec 8)
  /-- Before the load of `UCSRB |= mask` (AVR/UsartTransmit.h 200, Bit.h 65). -/
  | cleared (d : Nat)
  /-- Before its store (AVR/UsartTransmit.h 200, Bit.h 65). -/
  | loaded2 (d : Nat) (v : BitVec 8)
  /-- Before the store to UDR (AVR/UsartTransmit.h 203). -/
  | ready (d : Nat)
  deriving DecidableEq, Repr

/-- The USART, the place of main code, and as a history variable the completed calls: of main code (`true`) or a handler, the data, what was returned (AVR/UsartTransmit.h 147-171). -/
structure St where
  hw : Hw
  pc : Pc
  log : List (Bool × Nat × Bool)

/-- What happens (AVR/UsartTransmit.h 147-204). -/
inductive Ev where
  /-- Main code calls `Write`. -/
  | write (d : Nat)
  /-- Main code calls `TryWrite`. -/
  | tryWrite (d : Nat)
  /-- Main code goes on. -/
  | main
  /-- A handler calls `TryWrite`. -/
  | handler (d : Nat)
  /-- A frame has been sent. -/
  | frame
  /-- The empty shift register takes the data register. -/
  | load
  deriving DecidableEq, Repr

/-- The next access of main code (AVR/UsartTransmit.h 147-204). -/
def mainStep (y : St) : St :=
  match y.pc with
  | .idle => y
  | .waiting d => if getAcceptData y.hw then { y with pc := .accepted d } else y
  | .trying d => if getAcceptData y.hw then { y with pc := .accepted d } else { y with pc := .idle, log := y.log ++ [(true, d, false)] }
  | .accepted d => { y with pc := if is9 y.hw then .nine d else .ready d }
  | .nine d => { y with pc := .loaded1 d y.hw.readB }
  | .loaded1 d v => { y with hw := y.hw.writeB (clearBit 0 v), pc := if d.testBit 8 then .cleared d else .ready d }
  | .cleared d => { y with pc := .loaded2 d y.hw.readB }
  | .loaded2 d v => { y with hw := y.hw.writeB (setBit 0 v), pc := .ready d }
  | .ready d => { hw := y.hw.writeUDR (d % 256), pc := .idle, log := y.log ++ [(true, d, true)] }

/-- One event (AVR/UsartTransmit.h 147-204); main code begins a call only outside of calls. -/
def step (y : St) : Ev → St
  | .write d => if y.pc = .idle then { y with pc := .waiting d } else y
  | .tryWrite d => if y.pc = .idle then { y with pc := .trying d } else y
  | .main => mainStep y
  | .handler d =>
    let r := Usart.tryWrite d y.hw
    { y with hw := r.1, log := y.log ++ [(false, d, r.2)] }
  | .frame => { y with hw := y.hw.frameTime }
  | .load => { y with hw := y.hw.load }

/-- A history (AVR/UsartTransmit.h 147-204). -/
def run (y : St) : List Ev → St
  | [] => y
  | e :: es => run (step y e) es

/-- After opening, `b` the control register (AVR/Usart.h 64-81). -/
def St.init (b : BitVec 8) : St := ⟨{ ucsrb := b }, .idle, []⟩

end Atl.UsartPolled
